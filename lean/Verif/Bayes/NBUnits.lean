import Verif.Bayes.NBData
import Mathlib.Analysis.SpecialFunctions.Exp
import Mathlib.Data.Rat.Sqrt
import Mathlib.Analysis.SpecialFunctions.Trigonometric.Bounds

/-!
C287: does the unit of a numeric attribute matter to `NaiveBayes`?
-/

namespace Verif.Bayes

open Verif.Trees

/-- `probability_density`, gaussian_estimator.py 56-79; `dens v d` is the normal density with variance `v` at
distance `d` from the mean (`std_dev > 0` means that the variance is). -/
def density (dens : ℚ → ℚ → ℚ) (e : Est) (v : ℚ) : ℚ :=
  if 0 < e.weightSum then
    if 0 < e.variance then dens e.variance (v - e.mean) else if v = e.mean then 1 else 0
  else 0

/-! ### Specification -/

/-- A law of the normal density: in another unit it is the density per that unit. -/
def Homogeneous (dens : ℚ → ℚ → ℚ) : Prop := ∀ a v d, 0 < a → dens (a ^ 2 * v) (a * d) = dens v d / a

/-- The normal density over the reals (lines 75-76) obeys it. -/
theorem normal_homogeneous (a v d : ℝ) (ha : 0 < a) :
    1 / (√(2 * Real.pi) * √(a ^ 2 * v)) * Real.exp (-((a * d) * (a * d) / (2 * √(a ^ 2 * v) * √(a ^ 2 * v)))) =
      1 / (√(2 * Real.pi) * √v) * Real.exp (-(d * d / (2 * √v * √v))) / a := by
  have h1 : √(a ^ 2 * v) = a * √v := by rw [Real.sqrt_mul (sq_nonneg a), Real.sqrt_sq ha.le]
  rw [h1]
  have h2 : (a * d) * (a * d) / (2 * (a * √v) * (a * √v)) = d * d / (2 * √v * √v) := by
    have ha' : a ≠ 0 := ha.ne'
    by_cases hv : √v = 0
    · rw [hv]; simp
    · field_simp
  rw [h2]
  have ha' : a ≠ 0 := ha.ne'
  by_cases hv : √v = 0
  · rw [hv]; simp
  · field_simp

/-- A row whose attribute `i` is given in another unit. -/
def rescale (i : Nat) (a b : ℚ) (x : List ℚ) : List ℚ := x.modify i fun v => a * v + b

/-- A training row in another unit. -/
def Sample.rescale (i : Nat) (a b : ℚ) (r : Sample ℚ) : Sample ℚ := ⟨Bayes.rescale i a b r.x, r.y, r.w⟩

/-- Class `c` has weight more than 1 and two different values of attribute `i`. -/
def Varies (h : List (Sample ℚ)) (i c : Nat) : Prop :=
  1 < classWeight h c ∧ ∃ p ∈ h, ∃ q ∈ h, p.y = c ∧ q.y = c ∧ p.x[i]? ≠ q.x[i]?

/-! ### The estimator -/

theorem est_affine (a b : ℚ) (l : List (ℚ × ℚ)) :
    (Est.run (l.map fun o => (some (a * o.1 + b), o.2))).weightSum = (Est.run (l.map fun o => (some o.1, o.2))).weightSum ∧
    (Est.run (l.map fun o => (some (a * o.1 + b), o.2))).varSum = a ^ 2 * (Est.run (l.map fun o => (some o.1, o.2))).varSum ∧
    (0 < (Est.run (l.map fun o => (some o.1, o.2))).weightSum →
      (Est.run (l.map fun o => (some (a * o.1 + b), o.2))).mean = a * (Est.run (l.map fun o => (some o.1, o.2))).mean + b) := by
  induction l using List.reverseRecOn with
  | nil => refine ⟨rfl, by simp [Est.run], fun h => by simp [Est.run] at h⟩
  | append_singleton l o ih =>
    obtain ⟨i1, i2, i3⟩ := ih
    have e1 : Est.run ((l ++ [o]).map fun o => (some (a * o.1 + b), o.2)) =
        (Est.run (l.map fun o => (some (a * o.1 + b), o.2))).add (some (a * o.1 + b)) o.2 := by
      simp [Est.run, List.foldl_append]
    have e2 : Est.run ((l ++ [o]).map fun o => (some o.1, o.2)) = (Est.run (l.map fun o => (some o.1, o.2))).add (some o.1) o.2 := by
      simp [Est.run, List.foldl_append]
    rw [e1, e2]
    generalize Est.run (l.map fun o => (some (a * o.1 + b), o.2)) = E at *
    generalize Est.run (l.map fun o => (some o.1, o.2)) = F at *
    unfold Est.add
    by_cases hw : F.weightSum > 0
    · simp only [i1, if_pos hw, i2, i3 hw]
      refine ⟨trivial, by ring, fun _ => by ring⟩
    · simp only [i1, if_neg hw, i2]
      exact ⟨trivial, trivial, fun _ => trivial⟩

theorem density_affine (dens : ℚ → ℚ → ℚ) (hd : Homogeneous dens) (a b : ℚ) (ha : 0 < a) (l : List (ℚ × ℚ)) (v : ℚ)
    (hv : 0 < (Est.run (l.map fun o => (some o.1, o.2))).variance) :
    density dens (Est.run (l.map fun o => (some (a * o.1 + b), o.2))) (a * v + b) =
      density dens (Est.run (l.map fun o => (some o.1, o.2))) v / a := by
  obtain ⟨i1, i2, i3⟩ := est_affine a b l
  generalize Est.run (l.map fun o => (some (a * o.1 + b), o.2)) = E at *
  generalize Est.run (l.map fun o => (some o.1, o.2)) = F at *
  have hw1 : 1 < F.weightSum := by
    by_contra h
    rw [Est.variance, if_neg h] at hv
    exact lt_irrefl _ hv
  have hw : 0 < F.weightSum := by linarith
  have hvar : E.variance = a ^ 2 * F.variance := by
    unfold Est.variance
    rw [i1, if_pos hw1, if_pos hw1, i2]; ring
  unfold density
  rw [i1, if_pos hw, if_pos hw, hvar, if_pos (by positivity), if_pos hv, i3 hw,
    show a * v + b - (a * F.mean + b) = a * (v - F.mean) by ring, hd a _ _ ha]

theorem varies_pos (l : List (ℚ × ℚ)) (hp : ∀ o ∈ l, 0 < o.2) (ht : 1 < totW l) (p q : ℚ × ℚ) (hpl : p ∈ l) (hql : q ∈ l) (hne : p.1 ≠ q.1) :
    0 < (Est.run (l.map fun o => (some o.1, o.2))).variance := by
  have hu : usable (l.map fun o => (some o.1, o.2)) = l := by
    unfold usable
    rw [List.filterMap_map]
    simp [Function.comp_def]
  have hm := C33_weighted_moments (l.map fun o => (some o.1, o.2)) (by
    intro o ho; obtain ⟨q, hq, rfl⟩ := List.mem_map.1 ho; exact hp q hq) (by rw [hu]; exact List.ne_nil_of_mem hpl)
  rw [hu] at hm
  rw [hm.2.2, if_pos ht]
  apply div_pos _ (by linarith)
  have nn : ∀ x ∈ l.map (fun o => o.2 * (o.1 - wMean l) ^ 2), 0 ≤ x := by
    intro x hx
    obtain ⟨o, ho, rfl⟩ := List.mem_map.1 hx
    exact mul_nonneg (hp o ho).le (sq_nonneg _)
  have term : ∀ o ∈ l, o.2 * (o.1 - wMean l) ^ 2 ≤ wDev l := fun o ho =>
    List.single_le_sum nn _ (List.mem_map.2 ⟨o, ho, rfl⟩)
  by_contra hn
  have z : ∀ o ∈ l, o.1 = wMean l := by
    intro o ho
    by_contra e
    have h1 : 0 < (o.1 - wMean l) ^ 2 := by
      have : o.1 - wMean l ≠ 0 := sub_ne_zero.2 e
      positivity
    have h2 := term o ho
    have h3 := mul_pos (hp o ho) h1
    linarith
  exact hne ((z p hpl).trans (z q hql).symm)

/-! ### Rows in another unit -/

theorem rescale_get (i : Nat) (a b : ℚ) (x : List ℚ) (j : Nat) :
    (rescale i a b x)[j]? = if i = j then (x[j]?).map fun v => a * v + b else x[j]? := by
  unfold rescale
  rw [List.getElem?_modify]
  by_cases e : i = j
  · simp [e]
  · simp [e]

theorem cells_rescale (i : Nat) (a b : ℚ) (h : List (Sample ℚ)) (j : Nat) :
    cells j (h.map (Sample.rescale i a b)) =
      if i = j then (cells j h).map fun q => (a * q.1 + b, q.2.1, q.2.2) else cells j h := by
  unfold cells
  rw [List.filterMap_map]
  by_cases e : i = j
  · rw [if_pos e, List.map_filterMap]
    apply List.filterMap_congr
    intro r _
    simp only [Function.comp_apply, Sample.rescale, rescale_get, if_pos e, Option.map_map, Option.map_map]
    rfl
  · rw [if_neg e]
    apply List.filterMap_congr
    intro r _
    simp only [Function.comp_apply, Sample.rescale, rescale_get, if_neg e]

/-- The likelihood factor of one attribute. -/
def likelihood (B : Obs ℚ ObsSt) (h : List (Sample ℚ)) (i : Nat) (v : ℚ) (c : Nat) : ℚ :=
  match column B i h with
  | some o => B.prob o v c
  | none => 1

theorem column_cells (B : Obs ℚ ObsSt) (i : Nat) (h : List (Sample ℚ)) :
    column B i h = if cells i h = [] then none else some ((cells i h).foldl (fun o c => B.update o c.1 c.2.1 c.2.2) (B.fresh i)) := rfl

theorem likelihood_other (B : Obs ℚ ObsSt) (i : Nat) (a b : ℚ) (h : List (Sample ℚ)) (j : Nat) (hj : i ≠ j) (v : ℚ) (c : Nat) :
    likelihood B (h.map (Sample.rescale i a b)) j v c = likelihood B h j v c := by
  unfold likelihood
  rw [column_cells, column_cells, cells_rescale, if_neg hj]

theorem likelihood_this (nominal : Nat → Bool) (dens : ℚ → ℚ → ℚ) (hd : Homogeneous dens) (i : Nat) (hi : nominal i = false) (a b : ℚ)
    (ha : 0 < a) (h : List (Sample ℚ)) (hp : ∀ r ∈ h, 0 < r.w) (hlen : ∀ r ∈ h, i < r.x.length) (c : Nat) (hv : Varies h i c) (v : ℚ) :
    likelihood (observers nominal (density dens)) (h.map (Sample.rescale i a b)) i (a * v + b) c =
      likelihood (observers nominal (density dens)) h i v c / a := by
  obtain ⟨hv1, p, hpm, q, hqm, hpc, hqc, hpq⟩ := hv
  have hf : (observers nominal (density dens)).fresh i = .num [] := by simp [observers, hi]
  have hcell : ∀ r ∈ h, ∃ w, r.x[i]? = some w ∧ (w, r.y, r.w) ∈ cells i h := by
    intro r hr
    refine ⟨r.x[i]'(hlen r hr), List.getElem?_eq_getElem _, List.mem_filterMap.2 ⟨r, hr, ?_⟩⟩
    rw [List.getElem?_eq_getElem (hlen r hr)]; rfl
  obtain ⟨wp, hwp, hwp'⟩ := hcell p hpm
  obtain ⟨wq, hwq, hwq'⟩ := hcell q hqm
  have hne : cells i h ≠ [] := List.ne_nil_of_mem hwp'
  unfold likelihood
  rw [column_cells, column_cells, cells_rescale, if_pos rfl, if_neg (by simpa using hne), if_neg hne, hf, num_fold, num_fold]
  show gProb (density dens) (gRun _) _ c = gProb (density dens) (gRun _) v c / a
  rw [gProb_spec, gProb_spec]
  have hof : ∀ l : List (ℚ × Nat × ℚ), ofClass (l.map fun q => (q.2.1, q.1, q.2.2)) c =
      (l.filter fun q => q.2.1 = c).map fun q => (q.1, q.2.2) := by
    intro l
    unfold ofClass
    rw [List.filter_map, List.map_map]
    rfl
  have hof' : ofClass (((cells i h).map fun q => (a * q.1 + b, q.2.1, q.2.2)).map fun q => (q.2.1, q.1, q.2.2)) c =
      (((cells i h).filter fun q => q.2.1 = c).map fun q => (q.1, q.2.2)).map fun o => (a * o.1 + b, o.2) := by
    rw [hof, List.filter_map, List.map_map, List.map_map]
    rfl
  rw [hof', hof]
  set L := ((cells i h).filter fun q => q.2.1 = c).map fun q => (q.1, q.2.2) with hL
  have m1 : (wp, p.w) ∈ L := List.mem_map.2 ⟨_, List.mem_filter.2 ⟨hwp', by simpa using hpc⟩, rfl⟩
  have m2 : (wq, q.w) ∈ L := List.mem_map.2 ⟨_, List.mem_filter.2 ⟨hwq', by simpa using hqc⟩, rfl⟩
  have hLne : L ≠ [] := List.ne_nil_of_mem m1
  rw [if_neg (by simpa using hLne), if_neg hLne, List.map_map]
  refine density_affine dens hd a b ha L v (varies_pos L ?_ ?_ (wp, p.w) (wq, q.w) m1 m2 ?_)
  · intro o ho
    obtain ⟨t, ht, rfl⟩ := List.mem_map.1 ho
    exact cells_pos i h hp t (List.mem_filter.1 ht).1
  · have e : totW L = classWeight h c := by
      unfold totW
      rw [hL, List.map_map]
      have := cells_sum i c (fun _ => 1) h
      simp only [mul_one] at this
      have e0 : ((fun o : ℚ × ℚ => o.2) ∘ fun q : ℚ × Nat × ℚ => (q.1, q.2.2)) = fun q => q.2.2 := rfl
      rw [e0, this]
      unfold classWeight
      rw [sum_filter]
      congr 1
      apply List.map_congr_left
      intro r hr
      rw [List.getElem?_eq_getElem (hlen r hr)]
      by_cases e : r.y = c <;> simp [e]
    rw [e]; exact hv1
  · intro e
    simp only [] at e
    rw [hwp, hwq, e] at hpq
    exact hpq rfl

/-! ### The answers -/

theorem joint_eq (B : Obs ℚ ObsSt) (h : List (Sample ℚ)) (x : List ℚ) (c : Nat) :
    joint B h x c = classWeight h c / totalWeight h * (((List.range x.length).zip x).map fun iv => likelihood B h iv.1 iv.2 c).prod := by
  unfold joint
  congr 2
  apply List.map_congr_left
  intro iv _
  unfold likelihood
  cases column B iv.1 h <;> rfl

theorem zip_rescale (i : Nat) (a b : ℚ) (x : List ℚ) :
    (List.range (rescale i a b x).length).zip (rescale i a b x) =
      ((List.range x.length).zip x).map fun p => (p.1, if i = p.1 then a * p.2 + b else p.2) := by
  have hl : (rescale i a b x).length = x.length := by simp [rescale]
  rw [hl]
  apply List.ext_getElem?
  intro k
  rw [List.getElem?_map]
  simp only [List.zip, List.getElem?_zipWith, rescale_get]
  by_cases hk : k < x.length
  · rw [List.getElem?_range hk, List.getElem?_eq_getElem hk]
    by_cases e : i = k <;> simp [e]
  · have e1 : (List.range x.length)[k]? = none := List.getElem?_eq_none (by simpa using hk)
    rw [e1]; rfl

theorem prod_rescale (f g : Nat → ℚ → ℚ) (i : Nat) (a b : ℚ) (l : List (Nat × ℚ)) (hn : (l.map Prod.fst).Nodup)
    (h1 : ∀ j v, i ≠ j → g j v = f j v) (h2 : ∀ v, g i (a * v + b) = f i v / a) :
    ((l.map fun p => (p.1, if i = p.1 then a * p.2 + b else p.2)).map fun p => g p.1 p.2).prod =
      (l.map fun p => f p.1 p.2).prod / if i ∈ l.map Prod.fst then a else 1 := by
  induction l with
  | nil => simp
  | cons p l ih =>
    rw [List.map_cons, List.nodup_cons] at hn
    simp only [List.map_cons, List.prod_cons, ih hn.2, List.mem_cons]
    by_cases e : i = p.1
    · subst e
      simp only [if_true, h2, true_or, hn.1, if_false]
      ring
    · simp only [e, if_false, false_or, h1 p.1 p.2 e]
      ring

theorem joint_rescale (nominal : Nat → Bool) (dens : ℚ → ℚ → ℚ) (hd : Homogeneous dens) (i : Nat) (hi : nominal i = false) (a b : ℚ)
    (ha : 0 < a) (h : List (Sample ℚ)) (hp : ∀ r ∈ h, 0 < r.w) (hlen : ∀ r ∈ h, i < r.x.length)
    (hv : ∀ c, (∃ r ∈ h, r.y = c) → Varies h i c) (x : List ℚ) (c : Nat) :
    joint (observers nominal (density dens)) (h.map (Sample.rescale i a b)) (rescale i a b x) c =
      joint (observers nominal (density dens)) h x c / if i < x.length then a else 1 := by
  have e1 : classWeight (h.map (Sample.rescale i a b)) c = classWeight h c := by
    unfold classWeight
    rw [List.filter_map, List.map_map]
    rfl
  have e2 : totalWeight (h.map (Sample.rescale i a b)) = totalWeight h := by
    unfold totalWeight
    rw [List.map_map]
    rfl
  rw [joint_eq, joint_eq, e1, e2]
  by_cases hc : ∃ r ∈ h, r.y = c
  · have hz : ((List.range x.length).zip x).map Prod.fst = List.range x.length := by
      rw [List.map_fst_zip]
      simp
    rw [zip_rescale, prod_rescale (fun j v => likelihood (observers nominal (density dens)) h j v c)
      (fun j v => likelihood (observers nominal (density dens)) (h.map (Sample.rescale i a b)) j v c) i a b _ (by
        rw [hz]; exact List.nodup_range)
      (fun j v hj => likelihood_other _ i a b h j hj v c)
      (fun v => likelihood_this nominal dens hd i hi a b ha h hp hlen c (hv c hc) v), hz]
    simp only [List.mem_range]
    ring
  · have e0 : classWeight h c = 0 := by
      unfold classWeight
      have : h.filter (fun r => decide (r.y = c)) = [] := by
        rw [List.filter_eq_nil_iff]
        intro r hr e
        exact hc ⟨r, hr, by simpa using e⟩
      rw [this]; rfl
    rw [e0]; simp

theorem fill_scale (a : ℚ) (ha : a ≠ 0) (total : ℚ) (vs : List (Nat × ℚ)) (row : List ℚ) :
    fill (total / a) (vs.map fun p => (p.1, p.2 / a)) row = fill total vs row := by
  induction vs generalizing row with
  | nil => rfl
  | cons p vs ih =>
    obtain ⟨k, v⟩ := p
    rw [List.map_cons, fill, fill]
    have e : (if total / a ≠ 0 then v / a / (total / a) else 0) = if total ≠ 0 then v / total else 0 := by
      by_cases h0 : total = 0
      · simp [h0]
      · rw [if_pos (div_ne_zero h0 ha), if_pos h0]; field_simp
    simp only [e, ih]

theorem rescale_flat (i : Nat) (a b : ℚ) (calls : List (List (Sample ℚ) × Option Classes)) :
    (calls.map fun c => (c.1.map (Sample.rescale i a b), c.2)).flatMap Prod.fst = (calls.flatMap Prod.fst).map (Sample.rescale i a b) := by
  rw [List.flatMap_map, List.map_flatMap]

/-- The class distribution and the labels do not depend on the features. -/
theorem fit_labels (B : Obs ℚ ObsSt) (i : Nat) (a b : ℚ) (calls : List (List (Sample ℚ) × Option Classes)) (s t : NB ObsSt)
    (hd : s.dist = t.dist) (hc : s.classes = t.classes) (s' t' : NB ObsSt) (hs : fitAll B s calls = .ok s')
    (ht : fitAll B t (calls.map fun c => (c.1.map (Sample.rescale i a b), c.2)) = .ok t') :
    s'.dist = t'.dist ∧ s'.classes = t'.classes := by
  induction calls generalizing s t with
  | nil =>
    simp only [fitAll, List.map_nil, List.foldlM_nil, pure, Except.pure, Except.ok.injEq] at hs ht
    rw [← hs, ← ht]; exact ⟨hd, hc⟩
  | cons c calls ih =>
    simp only [fitAll, List.map_cons, List.foldlM_cons, bind, Except.bind] at hs ht
    cases h1 : s.partialFit B c.1 c.2 with
    | error e => rw [h1] at hs; cases hs
    | ok s1 =>
      cases h2 : t.partialFit B (c.1.map (Sample.rescale i a b)) c.2 with
      | error e => rw [h2] at ht; cases ht
      | ok t1 =>
        rw [h1] at hs
        rw [h2] at ht
        simp only [] at hs ht
        have hfold : ∀ (l : List (Sample ℚ)) (s t : NB ObsSt), s.dist = t.dist → s.classes = t.classes →
            (l.foldl (fun s a => if a.w ≠ 0 then s.learn B a else s) s).dist =
              ((l.map (Sample.rescale i a b)).foldl (fun s a => if a.w ≠ 0 then s.learn B a else s) t).dist ∧
            (l.foldl (fun s a => if a.w ≠ 0 then s.learn B a else s) s).classes =
              ((l.map (Sample.rescale i a b)).foldl (fun s a => if a.w ≠ 0 then s.learn B a else s) t).classes := by
          intro l
          induction l with
          | nil => exact fun s t h1 h2 => ⟨h1, h2⟩
          | cons r l ih =>
            intro s t h1 h2
            rw [List.foldl_cons, List.map_cons, List.foldl_cons]
            have hw : (Sample.rescale i a b r).w = r.w := rfl
            rw [hw]
            by_cases h0 : r.w ≠ 0
            · rw [if_pos h0, if_pos h0]
              refine ih _ _ ?_ h2
              show bump s.dist r.y r.w = bump t.dist r.y r.w
              rw [h1]
            · rw [if_neg h0, if_neg h0]; exact ih _ _ h1 h2
        have key : s1.dist = t1.dist ∧ s1.classes = t1.classes := by
          unfold NB.partialFit at h1 h2
          rw [← hc] at h2
          have step : ∀ f : Bool, (Except.ok ((c.1.foldl (fun s a => if a.w ≠ 0 then s.learn B a else s)
                (match f, c.2 with | true, some c => { s with classes := some c } | _, _ => s))) : Except PyErr (NB ObsSt)) = .ok s1 →
              (Except.ok (((c.1.map (Sample.rescale i a b)).foldl (fun s a => if a.w ≠ 0 then s.learn B a else s)
                (match f, c.2 with | true, some c => { t with classes := some c } | _, _ => t))) : Except PyErr (NB ObsSt)) = .ok t1 →
              s1.dist = t1.dist ∧ s1.classes = t1.classes := by
            intro f g1 g2
            rw [Except.ok.injEq] at g1 g2
            rw [← g1, ← g2]
            cases f with
            | false => exact hfold _ _ _ hd hc
            | true =>
              cases c.2 with
              | none => exact hfold _ _ _ hd hc
              | some c0 => exact hfold _ _ _ hd rfl
          cases hsc : s.classes with
          | none =>
            rw [hsc] at h1 h2
            exact step true h1 h2
          | some c0 =>
            rw [hsc] at h1 h2
            simp only [] at h1 h2
            cases hfal : c0.falsy with
            | error e => rw [hfal] at h1; cases h1
            | ok f =>
              rw [hfal] at h1 h2
              exact step f h1 h2
        exact ih s1 t1 key.1 key.2 hs ht

/-- C287 (partial): give numeric attribute `i` in another unit (`x ↦ a x + b`, `a > 0`), in the training rows and in the
rows to predict.  If every class has weight more than 1 and two different values of the attribute, `predict_proba` and
`predict` answer as before.  Missing (see the violation): classes that have shown one value only. -/
theorem C287_units_partial (nominal : Nat → Bool) (dens : ℚ → ℚ → ℚ) (hd : Homogeneous dens) (i : Nat) (hi : nominal i = false)
    (a b : ℚ) (ha : 0 < a) (calls : List (List (Sample ℚ) × Option Classes)) (hc : ∀ c ∈ calls, ∀ l, c.2 ≠ some (.array l))
    (hp : ∀ r ∈ calls.flatMap Prod.fst, 0 < r.w) (hlen : ∀ r ∈ calls.flatMap Prod.fst, i < r.x.length)
    (hv : ∀ c, (∃ r ∈ calls.flatMap Prod.fst, r.y = c) → Varies (calls.flatMap Prod.fst) i c) :
    ∃ s s', fitAll (observers nominal (density dens)) NB.init calls = .ok s ∧
      fitAll (observers nominal (density dens)) NB.init (calls.map fun c => (c.1.map (Sample.rescale i a b), c.2)) = .ok s' ∧
      ∀ rows, s'.proba (observers nominal (density dens)) (rows.map (rescale i a b)) = s.proba (observers nominal (density dens)) rows ∧
        s'.predict (observers nominal (density dens)) (rows.map (rescale i a b)) = s.predict (observers nominal (density dens)) rows := by
  set B := observers nominal (density dens) with hB
  set H := calls.flatMap Prod.fst with hH
  obtain ⟨s, h1, f1⟩ := C97_training B calls hc
  obtain ⟨s', h2, f2⟩ := C97_training B (calls.map fun c => (c.1.map (Sample.rescale i a b), c.2)) (by
    intro c hm l
    obtain ⟨c0, h0, rfl⟩ := List.mem_map.1 hm
    exact hc c0 h0 l)
  obtain ⟨d1, d2⟩ := fit_labels B i a b calls NB.init NB.init rfl rfl s s' h1 h2
  refine ⟨s, s', h1, h2, fun rows => ?_⟩
  rw [rescale_flat, ← hH] at f2
  have eff : ∀ h : List (Sample ℚ), (∀ r ∈ h, 0 < r.w) → effective h = h := by
    intro h hp
    unfold effective
    rw [List.filter_eq_self]
    intro r hr
    simpa using (hp r hr).ne'
  have hp2 : ∀ r ∈ H.map (Sample.rescale i a b), 0 < r.w := by
    intro r hr
    obtain ⟨r0, h0, rfl⟩ := List.mem_map.1 hr
    exact hp r0 h0
  rw [← hH, eff H hp] at f1
  rw [eff _ hp2] at f2
  have key : s'.proba B (rows.map (rescale i a b)) = s.proba B rows := by
    unfold NB.proba
    rw [← d1]
    by_cases hd0 : s.dist = []
    · rw [if_pos hd0, if_pos hd0, List.map_map]; rfl
    · rw [if_neg hd0, if_neg hd0]
      have hne : H ≠ [] := by
        intro e
        cases hs : s.dist with
        | nil => exact hd0 hs
        | cons p l => obtain ⟨r, hr, _⟩ := (f1.keys p.1).1 (by rw [hs]; simp); rw [e] at hr; cases hr
      have row : ∀ x, s'.probaRow B (rescale i a b x) = s.probaRow B x := by
        intro x
        have v1 := votes_eq B H s f1 hne (ne_of_gt (total_pos H hp hne)) x
        have v2 := votes_eq B (H.map (Sample.rescale i a b)) s' f2 (by simpa using hne) (ne_of_gt (total_pos _ hp2 (by simpa using hne)))
          (rescale i a b x)
        have hk : (if i < x.length then a else 1) ≠ 0 := by split <;> [exact ha.ne'; exact one_ne_zero]
        have v3 : votes B s' (rescale i a b x) = (votes B s x).map fun p => (p.1, p.2 / if i < x.length then a else 1) := by
          rw [v1, v2, ← d1, List.map_map (f := fun c => (c, joint B H x c))]
          apply List.map_congr_left
          intro c _
          rw [Function.comp_apply, joint_rescale nominal dens hd i hi a b ha H hp hlen hv x c]
        unfold NB.probaRow
        simp only []
        have hsum : ((votes B s' (rescale i a b x)).map Prod.snd).sum = ((votes B s x).map Prod.snd).sum / if i < x.length then a else 1 := by
          rw [v3, List.map_map]
          generalize (if i < x.length then a else 1) = k
          induction votes B s x with
          | nil => simp
          | cons p l ih =>
            rw [List.map_cons, List.sum_cons, ih, List.map_cons, List.sum_cons, Function.comp_apply]
            ring
        have hfst : (votes B s' (rescale i a b x)).map Prod.fst = (votes B s x).map Prod.fst := by
          rw [v3, List.map_map]; rfl
        rw [hsum, hfst, ← d2, v3, fill_scale _ hk]
      have : ∀ rows : List (List ℚ), (rows.map (rescale i a b)).mapM (s'.probaRow B) = rows.mapM (s.probaRow B) := by
        intro rows
        induction rows with
        | nil => rfl
        | cons x rows ih => rw [List.map_cons, List.mapM_cons, List.mapM_cons, row, ih]
      exact this rows
  exact ⟨key, by unfold NB.predict; rw [key]⟩

/-- Class 0 has shown the value 5 twice, class 1 the values 4 and 6. -/
def fives : List (Sample ℚ) := [⟨[5], 0, 1⟩, ⟨[5], 0, 1⟩, ⟨[4], 1, 1⟩, ⟨[6], 1, 1⟩]

/-- **C287, violated**: a class that has shown one value only gets the density 1 at that value in every unit, a class
that varies gets its density per unit.  So the unit decides which class is predicted. -/
theorem C287_one_value_violated (nominal : Nat → Bool) (hn : nominal 0 = false) (dens : ℚ → ℚ → ℚ) (hd : Homogeneous dens)
    (hpos : 0 < dens 2 0) (a : ℚ) (ha : 0 < a) :
    ∃ s, fitAll (observers nominal (density dens)) NB.init [(fives.map (Sample.rescale 0 a 0), none)] = .ok s ∧
      s.predict (observers nominal (density dens)) [rescale 0 a 0 [5]] = .ok [if a < dens 2 0 then 1 else 0] := by
  set B := observers nominal (density dens) with hB
  obtain ⟨s, h1, f1⟩ := C97_training B [(fives.map (Sample.rescale 0 a 0), none)] (by simp)
  refine ⟨s, h1, ?_⟩
  have heff : effective ([(fives.map (Sample.rescale 0 a 0), (none : Option Classes))].flatMap Prod.fst) = fives.map (Sample.rescale 0 a 0) := by
    simp [effective, fives, Sample.rescale]
  rw [heff] at f1
  set H := fives.map (Sample.rescale 0 a 0) with hH
  have hcl : s.classes = none := by
    have := fit_classes B none (by simp) [(fives.map (Sample.rescale 0 a 0), none)] (by simp) NB.init s (.inl rfl) h1
    simpa using this
  have htot : totalWeight H = 4 := by rw [hH]; simp [totalWeight, fives, Sample.rescale]; norm_num
  have hcw : ∀ c, classWeight H c = if c = 0 ∨ c = 1 then 2 else 0 := by
    intro c
    rw [hH]
    rcases c with _ | _ | c
    · simp [classWeight, fives, Sample.rescale]; norm_num
    · simp [classWeight, fives, Sample.rescale]; norm_num
    · simp [classWeight, fives, Sample.rescale]
  have hcells : cells 0 H = [(a * 5, 0, 1), (a * 5, 0, 1), (a * 4, 1, 1), (a * 6, 1, 1)] := by
    rw [hH]; simp [cells, fives, Sample.rescale, rescale]
  have hl : ∀ c, likelihood B H 0 (a * 5) c = gProb (density dens) (gRun [(0, a * 5, 1), (0, a * 5, 1), (1, a * 4, 1), (1, a * 6, 1)]) (a * 5) c := by
    intro c
    have hf : B.fresh 0 = .num [] := by rw [hB]; simp [observers, hn]
    unfold likelihood
    rw [column_cells, hcells, if_neg (by simp), hf, hB, num_fold]
    rfl
  have hx : rescale 0 a 0 [5] = [a * 5] := by simp [rescale]
  have hj : ∀ c, joint B H [a * 5] c = classWeight H c / totalWeight H * likelihood B H 0 (a * 5) c := by
    intro c; rw [joint_eq]; simp
  have j0 : joint B H [a * 5] 0 = 1 / 2 := by
    rw [hj, hcw, htot, hl, gProb_spec]
    have : ofClass [(0, a * 5, 1), (0, a * 5, 1), (1, a * 4, 1), (1, a * 6, 1)] 0 = [(a * 5, 1), (a * 5, 1)] := rfl
    rw [this, if_pos (.inl rfl), if_neg (by simp)]
    simp [Est.run, Est.add, density, Est.variance]
    norm_num
  have j1 : joint B H [a * 5] 1 = dens 2 0 / a / 2 := by
    rw [hj, hcw, htot, hl, gProb_spec]
    have : ofClass [(0, a * 5, 1), (0, a * 5, 1), (1, a * 4, 1), (1, a * 6, 1)] 1 = [(a * 4, 1), (a * 6, 1)] := rfl
    rw [this, if_pos (.inr rfl), if_neg (by simp)]
    have he : Est.run ([(a * 4, 1), (a * 6, 1)].map fun o => (some o.1, o.2)) = ⟨2, a * 5, a ^ 2 * 2⟩ := by
      simp only [Est.run, Est.add, List.map_cons, List.map_nil, List.foldl_cons, List.foldl_nil]
      norm_num
      constructor <;> ring
    have hv : (⟨2, a * 5, a ^ 2 * 2⟩ : Est).variance = a ^ 2 * 2 := by simp [Est.variance]; norm_num
    rw [he, density, if_pos (by norm_num), hv, if_pos (by positivity), show a * 5 - a * 5 = a * 0 by ring, hd a 2 0 ha]
    norm_num
    ring
  have jc : ∀ c, 2 ≤ c → joint B H [a * 5] c = 0 := by
    intro c hc
    rw [hj, hcw, if_neg (by omega)]; simp
  have hev : 0 < evidence B H [a * 5] := by
    have : (H.map Sample.y).dedup = [0, 1] := by rw [hH]; simp [fives, Sample.rescale]
    rw [evidence, this]
    simp only [List.map_cons, List.map_nil, List.sum_cons, List.sum_nil, j0, j1]
    positivity
  obtain ⟨c, p1, p2, p3⟩ := C97_prediction B H s f1 (by rw [hH]; simp [fives]) (by rw [htot]; norm_num) (by rw [hcl]; trivial) [a * 5] hev
  rw [hx, p1]
  have q0 := p2 ⟨[a * 5], 0, 1⟩ (by rw [hH]; simp [fives, Sample.rescale, rescale])
  have q1 := p2 ⟨[a * 4], 1, 1⟩ (by rw [hH]; simp [fives, Sample.rescale, rescale])
  simp only [j0, j1] at q0 q1
  have hiff : a < dens 2 0 ↔ 1 / 2 < dens 2 0 / a / 2 := by
    rw [div_lt_div_iff_of_pos_right (by norm_num : (0 : ℚ) < 2), lt_div_iff₀ ha, one_mul]
  rcases c with _ | _ | c
  · rw [j0] at q1
    rw [if_neg (by rw [hiff]; linarith)]
  · have := p3 0 (by norm_num)
    rw [zero_add, j0, j1] at this
    rw [if_pos (hiff.2 this)]
  · rw [jc (c + 1 + 1) (by omega)] at q0
    norm_num at q0

/-- A homogeneous function over the rationals (the normal density is one over the reals, see above). -/
def dens0 (v _d : ℚ) : ℚ := if Rat.sqrt (v / 2) * Rat.sqrt (v / 2) = v / 2 then 1 / Rat.sqrt (v / 2) else 0

theorem dens0_homogeneous : Homogeneous dens0 := by
  intro a v d ha
  unfold dens0
  have e : a ^ 2 * v / 2 = a * a * (v / 2) := by ring
  rw [e]
  by_cases h : Rat.sqrt (v / 2) * Rat.sqrt (v / 2) = v / 2
  · rw [if_pos h]
    set q := Rat.sqrt (v / 2) with hq
    have h1 : a * a * (v / 2) = (a * q) * (a * q) := by rw [← h]; ring
    have hq0 : 0 ≤ q := Rat.sqrt_nonneg _
    rw [h1, Rat.sqrt_eq, abs_of_nonneg (mul_nonneg ha.le hq0), if_pos rfl, div_div, mul_comm a q]
  · rw [if_neg h, if_neg, zero_div]
    intro h2
    apply h
    rw [← Rat.exists_mul_self]
    refine ⟨Rat.sqrt (a * a * (v / 2)) / a, ?_⟩
    rw [div_mul_div_comm, h2]
    have := ha.ne'
    field_simp

/-- The hypotheses are met: both classes vary; and for the violation. -/
example : Homogeneous dens0 ∧ 0 < dens0 2 0 ∧ Varies [⟨[5], 0, 1⟩, ⟨[7], 0, 1⟩, ⟨[4], 1, 1⟩, ⟨[6], 1, 1⟩] 0 1 :=
  ⟨dens0_homogeneous, by decide +kernel, by decide +kernel, ⟨[4], 1, 1⟩, by simp, ⟨[6], 1, 1⟩, by simp, rfl, rfl, by simp⟩

end Verif.Bayes
