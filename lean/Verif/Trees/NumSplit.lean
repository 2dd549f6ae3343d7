import Verif.Trees.Units

/-!
C297: what a split on a numeric attribute hands to the two branches of a `HoeffdingTreeClassifier`.
-/

namespace Verif.Trees.HL

open Verif.Trees
open Verif.Bayes (density)

variable {P : Type}

/-! ### Specification -/

/-- Weight of class `c` in class statistics. -/
def weightOf (s : Stats) (c : Int) : ℚ := ((s.filter fun p => p.1 = c).map Prod.snd).sum

/-- A row a leaf has learnt: attributes, label, weight. -/
abbrev Seen := List ℚ × Int × ℚ

/-- Weight of the rows with label `c`. -/
def seenOf (rs : List Seen) (c : Int) : ℚ := ((rs.filter fun r => r.2.1 = c).map fun r => r.2.2).sum

/-- The observers of a leaf that has learnt these rows since it was made. -/
def observed (par : Par P) (rs : List Seen) : List (AttObs P) :=
  rs.foldl (fun o r => updateAll par o r.1 r.2.1 r.2.2) []

/-- Rows as `partial_fit` passes them on: `n` attributes, label not negative, positive weight. -/
def Usable (n : Nat) (rs : List Seen) : Prop := ∀ r ∈ rs, r.1.length = n ∧ 0 ≤ r.2.1 ∧ 0 < r.2.2

/-- Value of attribute `j`. -/
def val (j : Nat) (x : List ℚ) : ℚ := x.getD j 0

/-- What the statement says of a split at `v` on attribute `j` with branch distributions `L` and `R`. -/
structure Fair (rs : List Seen) (j : Nat) (v : ℚ) (L R : Stats) : Prop where
  /-- there are rows on both sides -/
  below : ∃ r ∈ rs, val j r.1 < v
  above : ∃ r ∈ rs, v < val j r.1
  /-- the weight of a class is shared out -/
  shared : ∀ c, 0 ≤ weightOf L c ∧ 0 ≤ weightOf R c ∧ weightOf L c + weightOf R c = seenOf rs c
  /-- a class seen on one side only goes there -/
  left : ∀ c, (∀ r ∈ rs, r.2.1 = c → val j r.1 ≤ v) → weightOf R c = 0
  right : ∀ c, (∀ r ∈ rs, r.2.1 = c → v < val j r.1) → weightOf L c = 0

/-! ### Proofs -/

/-- What the observer of attribute `j` is told. -/
def history (j : Nat) (rs : List Seen) : List (Nat × ℚ × ℚ) := rs.map fun r => (r.2.1.toNat, val j r.1, r.2.2)

theorem observed_length (par : Par P) (n : Nat) (hn : par.start.length = n) (h0 : 0 < n) (rs : List Seen) (hr : Usable n rs)
    (hne : rs ≠ []) : (observed par rs).length = n := by
  induction rs using List.reverseRecOn with
  | nil => exact absurd rfl hne
  | append_singleton rs r ih =>
    have hrun : observed par (rs ++ [r]) = updateAll par (observed par rs) r.1 r.2.1 r.2.2 := by simp [observed]
    have hx := (hr r (by simp)).1
    rw [hrun]
    unfold updateAll
    rw [List.length_zipWith, hx]
    by_cases h : rs = []
    · subst h; simp [observed, hn]
    · have := ih (fun r h => hr r (by simp [h])) h
      have he : (observed par rs).isEmpty = false := by
        rw [List.isEmpty_eq_false_iff]; intro h'; rw [h'] at this; simp at this; omega
      rw [he]
      simp [this]

theorem observed_gauss (par : Par P) (n : Nat) (hn : par.start.length = n) (j : Nat) (hj : j < n)
    (hg : par.start[j]? = some (.gauss [])) (rs : List Seen) (hr : Usable n rs) (hne : rs ≠ []) :
    (observed par rs)[j]? = some (.gauss (gRun (history j rs))) := by
  induction rs using List.reverseRecOn with
  | nil => exact absurd rfl hne
  | append_singleton rs r ih =>
    have hrun : observed par (rs ++ [r]) = updateAll par (observed par rs) r.1 r.2.1 r.2.2 := by simp [observed]
    have hx := (hr r (by simp)).1
    have hgr : gRun (history j (rs ++ [r])) = gUpdate (gRun (history j rs)) r.2.1.toNat (val j r.1) r.2.2 := by
      simp [gRun, history]
    have hv : r.1[j]? = some (val j r.1) := by
      unfold val
      rw [List.getD_eq_getElem?_getD, List.getElem?_eq_getElem (by omega)]; rfl
    rw [hrun, hgr]
    unfold updateAll
    rw [List.getElem?_zipWith, hv]
    by_cases h : rs = []
    · subst h
      simp only [observed, List.foldl_nil, List.isEmpty_nil, if_true, hg]
      rfl
    · have hl := observed_length par n hn (by omega) rs (fun r h => hr r (by simp [h])) h
      have he : (observed par rs).isEmpty = false := by
        rw [List.isEmpty_eq_false_iff]; intro h'; rw [h'] at hl; simp at hl; omega
      rw [he, if_neg (by simp), ih (fun r h => hr r (by simp [h])) h]
      rfl

theorem weightOf_side (f : Nat × Option ℚ × Option ℚ → Option ℚ) (l : List (Nat × Option ℚ × Option ℚ)) (c : Int) :
    weightOf (l.filterMap fun p => (f p).map fun w => ((p.1 : Int), w)) c =
      ((l.filter fun p => (p.1 : Int) = c).map fun p => (f p).getD 0).sum := by
  induction l with
  | nil => rfl
  | cons a l ih =>
    unfold weightOf at ih ⊢
    cases h : f a with
    | none =>
      by_cases hc : (a.1 : Int) = c <;> simp [h, hc, ih]
    | some w =>
      by_cases hc : (a.1 : Int) = c <;> simp [h, hc, ih]

/-- At most one entry of a class. -/
theorem filter_key (l : List (Nat × Option ℚ × Option ℚ)) (hs : l.Pairwise fun a b => a.1 < b.1) (c : Int) :
    (l.filter fun p => (p.1 : Int) = c) = [] ∨ ∃ t ∈ l, (t.1 : Int) = c ∧ (l.filter fun p => (p.1 : Int) = c) = [t] := by
  induction l with
  | nil => exact .inl rfl
  | cons a l ih =>
    obtain ⟨h1, h2⟩ := List.pairwise_cons.mp hs
    by_cases hc : (a.1 : Int) = c
    · refine .inr ⟨a, by simp, hc, ?_⟩
      have : (l.filter fun p => (p.1 : Int) = c) = [] := by
        rw [List.filter_eq_nil_iff]
        intro b hb
        have := h1 b hb
        simp; omega
      simp [hc, this]
    · rcases ih h2 with h | ⟨t, ht, e, h⟩
      · exact .inl (by simp [hc, h])
      · exact .inr ⟨t, by simp [ht], e, by simp [hc, h]⟩

theorem gSplit_key (pdf cdf : Est → ℚ → ℚ) (s : ℚ) (p : Nat × ClsRec) :
    (if s < p.2.lo then (p.1, none, some p.2.est.weightSum)
      else if s ≥ p.2.hi then (p.1, some p.2.est.weightSum, none)
      else (p.1, some ((p.2.est.weights pdf cdf s).1 + (p.2.est.weights pdf cdf s).2.1),
        some (p.2.est.weights pdf cdf s).2.2) : Nat × Option ℚ × Option ℚ).1 = p.1 := by
  split_ifs <;> rfl

theorem gSplit_sorted (pdf cdf : Est → ℚ → ℚ) (o : GObs) (h : SortedKeys o) (s : ℚ) :
    (gSplit pdf cdf o s).Pairwise fun a b => a.1 < b.1 := by
  unfold gSplit
  rw [List.pairwise_map]
  exact h.imp fun {a b} hab => by
    have ha := gSplit_key pdf cdf s a
    have hb := gSplit_key pdf cdf s b
    simp only at ha hb ⊢
    rw [ha, hb]; exact hab

theorem seenOf_history (j n : Nat) (rs : List Seen) (hr : Usable n rs) (c : Nat) :
    (((history j rs).filter fun o => o.1 = c).map fun o => o.2.2).sum = seenOf rs c := by
  induction rs with
  | nil => rfl
  | cons r rs ih =>
    have hi := ih fun r h => hr r (by simp [h])
    have h0 := (hr r (by simp)).2.1
    unfold seenOf history at hi ⊢
    have hiff : r.2.1.toNat = c ↔ r.2.1 = (c : Int) := by omega
    by_cases hc : r.2.1 = (c : Int)
    · rw [List.map_cons, List.filter_cons_of_pos (by simpa using hiff.2 hc), List.filter_cons_of_pos (by simpa using hc)]
      simp only [List.map_cons, List.sum_cons, hi]
    · rw [List.map_cons, List.filter_cons_of_neg (by simpa using (not_congr hiff).2 hc), List.filter_cons_of_neg (by simpa using hc)]
      exact hi

/-- The split of the observer at a point inside the range of its values is fair. -/
theorem sides_fair (par : Par P) (hcum : ∀ v d, 0 ≤ par.cum v d ∧ par.cum v d ≤ 1) (n j : Nat) (rs : List Seen) (hr : Usable n rs) (v : ℚ)
    (hb : ∃ r ∈ rs, val j r.1 < v) (ha : ∃ r ∈ rs, v < val j r.1) :
    ∃ L R, sides (gSplit (density par.dens) par.cdf (gRun (history j rs)) v) = [L, R] ∧ Fair rs j v L R := by
  have hw : ∀ o ∈ history j rs, 0 < o.2.2 := by
    intro o ho
    obtain ⟨r, h, rfl⟩ := List.mem_map.mp ho
    exact (hr r h).2.2
  have hpdf : ∀ e u, e.variance = 0 → density par.dens e u = degeneratePdf e u := by
    intro e u he
    unfold density degeneratePdf
    rw [he]
    by_cases h : 0 < e.weightSum <;> simp [h]
  have hcdf : ∀ e u, 0 ≤ par.cdf e u ∧ par.cdf e u ≤ 1 := fun e u => hcum _ _
  obtain ⟨k1, k2⟩ := C63_split_conserves_weight _ _ hpdf hcdf (history j rs) hw v
  obtain ⟨g1, g2, g3⟩ := gRun_represents (history j rs)
  have hsort := gSplit_sorted (density par.dens) par.cdf _ g1 v
  -- how the sides of a class are read off the split
  have hcase : ∀ c, (seenOf rs c = 0 ∧ ((gSplit (density par.dens) par.cdf (gRun (history j rs)) v).filter fun p => (p.1 : Int) = c) = []) ∨
      ∃ t ∈ gSplit (density par.dens) par.cdf (gRun (history j rs)) v, (t.1 : Int) = c ∧
        ((gSplit (density par.dens) par.cdf (gRun (history j rs)) v).filter fun p => (p.1 : Int) = c) = [t] := by
    intro c
    rcases filter_key _ hsort c with h | h
    · refine .inl ⟨?_, h⟩
      unfold seenOf
      rw [List.filter_eq_nil_iff.mpr]; · rfl
      intro r hrr hcc
      simp only [decide_eq_true_eq] at hcc
      obtain ⟨t, ht, e⟩ := (k1 r.2.1.toNat).mpr ⟨_, List.mem_map.mpr ⟨r, hrr, rfl⟩, rfl⟩
      have h0 := (hr r hrr).2.1
      exact List.filter_eq_nil_iff.mp h t ht (by simp; omega)
    · exact .inr h
  -- the record behind an entry
  have hrec : ∀ t ∈ gSplit (density par.dens) par.cdf (gRun (history j rs)) v, ∃ p ∈ gRun (history j rs), p.1 = t.1 ∧
      (v < p.2.lo → t.2.1 = none) ∧ (p.2.lo ≤ v → p.2.hi ≤ v → t.2.2 = none) := by
    intro t ht
    obtain ⟨p, hp, rfl⟩ := List.mem_map.mp ht
    refine ⟨p, hp, (gSplit_key (density par.dens) par.cdf v p).symm, fun h => ?_, fun h h' => ?_⟩
    · rw [if_pos h]
    · rw [if_neg (not_lt.mpr h), if_pos h']
  have hmem : ∀ c : Nat, ∀ q ∈ ofClass (history j rs) c, ∃ r ∈ rs, r.2.1 = (c : Int) ∧ val j r.1 = q.1 := by
    intro c q hq
    obtain ⟨o, ho, rfl⟩ := List.mem_map.mp hq
    obtain ⟨ho1, ho2⟩ := List.mem_filter.mp ho
    obtain ⟨r, hrr, rfl⟩ := List.mem_map.mp ho1
    have h0 := (hr r hrr).2.1
    simp only [decide_eq_true_eq] at ho2
    exact ⟨r, hrr, by omega, rfl⟩
  refine ⟨_, _, rfl, hb, ha, fun c => ?_, fun c hc => ?_, fun c hc => ?_⟩
  · rw [weightOf_side (fun p => p.2.1), weightOf_side (fun p => p.2.2)]
    rcases hcase c with ⟨h0, h⟩ | ⟨t, ht, e, h⟩
    · rw [h, h0]; simp
    · rw [h]
      obtain ⟨m1, m2, m3⟩ := k2 t ht
      rw [seenOf_history j n rs hr t.1, e] at m3
      simpa [leftOf, rightOf] using And.intro m1 ⟨m2, m3⟩
  · rw [weightOf_side (fun p => p.2.2)]
    rcases hcase c with ⟨h0, h⟩ | ⟨t, ht, e, h⟩
    · rw [h]; rfl
    · rw [h]
      obtain ⟨p, hp, hp1, -, hp3⟩ := hrec t ht
      obtain ⟨-, r2, ⟨q, hq, hq'⟩, r4, ⟨q2, hq2, hq2'⟩⟩ := g2 p hp
      obtain ⟨s1, hs1, e1, v1⟩ := hmem p.1 q hq
      obtain ⟨s2, hs2, e2, v2⟩ := hmem p.1 q2 hq2
      have a1 := hc s1 hs1 (by rw [e1, hp1, e])
      have a2 := hc s2 hs2 (by rw [e2, hp1, e])
      rw [v1, hq'] at a1
      rw [v2, hq2'] at a2
      simp [hp3 a1 a2]
  · rw [weightOf_side (fun p => p.2.1)]
    rcases hcase c with ⟨h0, h⟩ | ⟨t, ht, e, h⟩
    · rw [h]; rfl
    · rw [h]
      obtain ⟨p, hp, hp1, hp2, -⟩ := hrec t ht
      obtain ⟨-, r2, ⟨q, hq, hq'⟩, -⟩ := g2 p hp
      obtain ⟨s1, hs1, e1, v1⟩ := hmem p.1 q hq
      have a1 := hc s1 hs1 (by rw [e1, hp1, e])
      rw [v1, hq'] at a1
      simp [hp2 a1]

theorem least (h : List (Nat × ℚ × ℚ)) (hne : h ≠ []) : ∃ o ∈ h, ∀ o' ∈ h, o.2.1 ≤ o'.2.1 := by
  induction h with
  | nil => exact absurd rfl hne
  | cons a h ih =>
    by_cases hh : h = []
    · subst hh; exact ⟨a, by simp, by simp⟩
    · obtain ⟨o, ho, hle⟩ := ih hh
      rcases le_total a.2.1 o.2.1 with k | k
      · exact ⟨a, by simp, fun o' ho' => by
          rcases List.mem_cons.mp ho' with rfl | h1
          · exact le_rfl
          · exact k.trans (hle o' h1)⟩
      · exact ⟨o, by simp [ho], fun o' ho' => by
          rcases List.mem_cons.mp ho' with rfl | h1
          · exact k
          · exact hle o' h1⟩

theorem greatest (h : List (Nat × ℚ × ℚ)) (hne : h ≠ []) : ∃ o ∈ h, ∀ o' ∈ h, o'.2.1 ≤ o.2.1 := by
  obtain ⟨o, ho, hle⟩ := least (h.map fun o => (o.1, -o.2.1, o.2.2)) (by simpa using hne)
  obtain ⟨q, hq, rfl⟩ := List.mem_map.mp ho
  exact ⟨q, hq, fun o' ho' => by
    have := hle _ (List.mem_map.mpr ⟨o', ho', rfl⟩)
    simpa using this⟩

/-- What the Gaussian observer proposes lies inside the range of the values. -/
theorem gBest_inside (pdf cdf : Est → ℚ → ℚ) (merit : List (Nat × Option ℚ × Option ℚ) → WithBot ℚ) (bins : Nat)
    (hb : 0 < bins) (h : List (Nat × ℚ × ℚ)) (hne : h ≠ []) (r : ℚ × List (Nat × Option ℚ × Option ℚ) × WithBot ℚ)
    (hr : gBest pdf cdf merit bins (gRun h) = some r) :
    r.2.1 = gSplit pdf cdf (gRun h) r.1 ∧ (∃ o ∈ h, o.2.1 < r.1) ∧ ∃ o ∈ h, r.1 < o.2.1 := by
  obtain ⟨lo, hlo, hlo'⟩ := least h hne
  obtain ⟨hi, hhi, hhi'⟩ := greatest h hne
  rcases (hlo' hi hhi).lt_or_eq with hlt | heq
  · obtain ⟨k, hk, e, -⟩ := C278_best pdf cdf merit bins hb h lo.2.1 hi.2.1 ⟨lo, hlo, rfl⟩ hlo' ⟨hi, hhi, rfl⟩ hhi' hlt
    rw [hr] at e
    simp only [Option.some.injEq] at e
    subst e
    have hd : 0 < (hi.2.1 - lo.2.1) / ((bins : ℚ) + 1) := div_pos (sub_pos.mpr hlt) (by positivity)
    refine ⟨rfl, ⟨lo, hlo, ?_⟩, ⟨hi, hhi, ?_⟩⟩
    · have : 0 < ((k : ℚ) + 1) * ((hi.2.1 - lo.2.1) / ((bins : ℚ) + 1)) := by positivity
      simp only; linarith
    · have hkb : (k : ℚ) + 1 < (bins : ℚ) + 1 := by exact_mod_cast Nat.add_lt_add_right hk 1
      have h1 := mul_lt_mul_of_pos_right hkb hd
      rw [mul_div_cancel₀ _ (by positivity)] at h1
      simp only; linarith
  · rw [C278_none pdf cdf merit bins h fun o ho o' ho' => by
      linarith [hlo' o ho, hlo' o' ho', hhi' o ho, hhi' o' ho']] at hr
    cases hr

/-- **C297.** A leaf that has learnt the rows `rs` (attribute `j`, numeric, not disabled since or disabled) and is split on
attribute `j`, gets exactly two branches: the threshold separates rows the leaf has seen, every row asked about goes to the
first branch if its value is at most the threshold and to the second otherwise, and the class weights the branches start with
share out the weight the leaf has seen of each class, a class seen on one side only going there. -/
theorem C297_split (par : Par P) (hcum : ∀ v d, 0 ≤ par.cum v d ∧ par.cum v d ≤ 1) (hbins : 0 < par.bins) (kind : Kind)
    (nbThreshold grace : ℚ) (n : Nat) (hn : par.start.length = n) (j : Nat) (hj : j < n) (hg : par.start[j]? = some (.gauss []))
    (rs : List Seen) (hr : Usable n rs) (hne : rs ≠ []) (l : Leaf (List (AttObs P)))
    (hobs : l.obs[j]? = (observed par rs)[j]? ∨ l.obs[j]? = some .off) (r : Row) (t : NumTest) (ht : t.att = j) (st : Stats)
    (kids : F (List (AttObs P)))
    (h : attempt (par.cfg kind nbThreshold grace) (par.ev kind r) l = .split (.num t) st kids) :
    ∃ a b, kids = .cons 0 (.leaf a) (.cons 1 (.leaf b) .nil) ∧ Fair rs j t.value a.stats b.stats ∧
      ∀ x : List ℚ, x.length = n → (Test.num t).branch x = .ok (if val j x ≤ t.value then 0 else 1) := by
  rw [observed_gauss par n hn j hj hg rs hr hne] at hobs
  unfold attempt at h
  split at h
  · have hch : (par.ev kind r).choose l = chooseSplit par kind l := rfl
    rw [hch] at h
    unfold chooseSplit at h
    simp only at h
    generalize hp : par.pick l.stats _ = pk at h
    cases pk with
    | keep poor => simp at h
    | prune => simp at h
    | split k =>
      simp only at h
      generalize hs : (suggestions par l.stats l.obs)[k]? = sg at h
      match sg with
      | none => simp at h
      | some (none, _) => simp at h
      | some (some (i, p, ds), m) =>
        simp only [T.split.injEq] at h
        obtain ⟨h1, h2, h3⟩ := h
        have hmem := List.mem_of_getElem? hs
        unfold suggestions at hmem
        rw [List.mem_append] at hmem
        rcases hmem with hm | hm
        · split at hm <;> simp at hm
        · obtain ⟨⟨o, i'⟩, hq, hb⟩ := List.mem_filterMap.mp hm
          rw [Option.map_eq_some_iff] at hb
          obtain ⟨b, hb, e⟩ := hb
          simp only [Prod.mk.injEq, Option.some.injEq] at e
          obtain ⟨⟨e1, e2, e3⟩, -⟩ := e
          subst e1 e2 e3
          -- which attribute
          cases hpb : b.1 with
          | nom v => rw [hpb] at h1; simp [Proposal.test] at h1
          | multi vals => rw [hpb] at h1; simp [Proposal.test] at h1
          | num v =>
            rw [hpb] at h1
            simp only [Proposal.test, Test.num.injEq] at h1
            subst h1
            have hij : i' = j := by simpa using ht
            subst hij
            have ho := (List.mem_zipIdx_iff_getElem?.mp hq)
            simp only at ho
            rw [ho] at hobs
            rcases hobs with ho' | ho'
            · simp only [Option.some.injEq] at ho'
              subst ho'
              simp only [AttObs.best, Option.map_eq_some_iff] at hb
              obtain ⟨q, hq, e⟩ := hb
              have hne' : history i' rs ≠ [] := by simpa [history] using hne
              obtain ⟨f1, ⟨o1, ho1, lt1⟩, ⟨o2, ho2, lt2⟩⟩ := gBest_inside _ _ _ _ hbins _ hne' q hq
              rw [← e] at hpb
              simp only [Proposal.num.injEq] at hpb
              rw [hpb] at f1 lt1 lt2
              obtain ⟨r1, hr1, rfl⟩ := List.mem_map.mp ho1
              obtain ⟨r2, hr2, rfl⟩ := List.mem_map.mp ho2
              obtain ⟨L, R, s1, s2⟩ := sides_fair par hcum n i' rs hr v ⟨r1, hr1, lt1⟩ ⟨r2, hr2, lt2⟩
              rw [← e] at h3
              simp only [f1, s1, newKids] at h3
              refine ⟨_, _, h3.symm, s2, fun x hx => ?_⟩
              have hv : xget x (i' : Int) = .ok (val i' x) := by
                refine xget_of_lt x i' (by omega) _ ?_
                unfold val
                rw [List.getD_eq_getElem?_getD, Int.toNat_natCast, List.getElem?_eq_getElem (by omega)]; rfl
              simp only [Test.branch, NumTest.branch]
              rw [if_neg (by omega), hv]
              simp only [Except.map, if_true]
              congr 1
              rcases lt_trichotomy (val i' x) v with c | c | c
              · rw [if_neg c.ne, if_pos c, if_pos c.le]
              · rw [if_pos c, if_pos c.le]
              · rw [if_neg c.ne', if_neg (not_lt.mpr c.le), if_neg (not_le.mpr c)]
            · simp only [Option.some.injEq] at ho'
              subst ho'
              simp [AttObs.best] at hb
  · simp at h

/-- **C297** (part): a new leaf has seen no rows, an active leaf that learns a row has seen it besides, and a split attempt
that keeps the leaf leaves what it has seen of an attribute as it is or disables the attribute. -/
theorem C297_life (par : Par P) (kind : Kind) (nbThreshold grace : ℚ) :
    (∀ s, (newLeaf (par.cfg kind nbThreshold grace) true s).obs = observed par []) ∧
    (∀ (l : Leaf (List (AttObs P))) rs x y w, l.active = true → l.obs = observed par rs →
      (l.learn (par.cfg kind nbThreshold grace) x y w).obs = observed par (rs ++ [(x, y, w)])) ∧
    ∀ (l : Leaf (List (AttObs P))) (r : Row) (l' : Leaf (List (AttObs P))), attempt (par.cfg kind nbThreshold grace) (par.ev kind r) l = .leaf l' → l'.active = true →
      ∀ (j : Nat) (o : AttObs P), l.obs[j]? = some o → l'.obs[j]? = some o ∨ l'.obs[j]? = some AttObs.off := by
  refine ⟨fun s => rfl, fun l rs x y w ha ho => ?_, fun l r l' h ha j o ho => ?_⟩
  · simp only [Leaf.learn, ha, if_true, ho, observed, List.foldl_append, List.foldl_cons, List.foldl_nil]
    rfl
  · unfold attempt at h
    split at h
    · have hch : (par.ev kind r).choose l = chooseSplit par kind l := rfl
      rw [hch] at h
      unfold chooseSplit at h
      simp only at h
      generalize hp : par.pick l.stats _ = pk at h
      cases pk with
      | keep poor =>
        simp only [T.leaf.injEq] at h
        subst h
        by_cases hk : kind = .mc
        · simp only [if_pos hk, disable, List.getElem?_map, List.getElem?_zipIdx, ho, Option.map_some]
          by_cases hm : 0 + j ∈ poor
          · exact .inr (by rw [if_pos hm])
          · exact .inl (by rw [if_neg hm])
        · simp only [if_neg hk, id]; exact .inl ho
      | prune =>
        simp only [T.leaf.injEq] at h
        subst h
        simp [newLeaf] at ha
      | split k =>
        simp only at h
        generalize hs : (suggestions par l.stats l.obs)[k]? = sg at h
        match sg with
        | none => simp only [T.leaf.injEq] at h; subst h; simp [newLeaf] at ha
        | some (none, _) => simp only [T.leaf.injEq] at h; subst h; simp [newLeaf] at ha
        | some (some (i, p, ds), m) => simp at h
    · simp only [T.leaf.injEq] at h
      subst h
      exact .inl ho

/-! ### Examples -/

/-- `par0` with a distribution function that stays in `[0, 1]` for all arguments. -/
def par1 : Par Empty := { par0 with cum := fun v d => if 0 ≤ v then cum0 v d else 0 }

theorem par1_cum (v d : ℚ) : 0 ≤ par1.cum v d ∧ par1.cum v d ≤ 1 := by
  show 0 ≤ (if 0 ≤ v then cum0 v d else 0) ∧ (if 0 ≤ v then cum0 v d else 0) ≤ 1
  by_cases hv : 0 ≤ v
  · rw [if_pos hv]
    unfold cum0
    have h2 : abs (d * abs d) = d ^ 2 := by rw [abs_mul, abs_abs, ← sq, sq_abs]
    have h3 : abs (d * abs d / (2 * (v + d ^ 2))) ≤ 1 / 2 := by
      rw [abs_div, h2, abs_of_nonneg (by positivity)]
      by_cases h0 : v + d ^ 2 = 0
      · rw [h0]; norm_num
      · have : 0 < v + d ^ 2 := lt_of_le_of_ne (by positivity) (Ne.symm h0)
        rw [div_le_iff₀ (by positivity)]
        linarith
    rw [abs_le] at h3
    constructor <;> linarith [h3.1, h3.2]
  · rw [if_neg hv]; norm_num

/-- The first four rows of `rows0`. -/
def seen0 : List Seen := [([0], 0, 1), ([1], 0, 1), ([3], 1, 1), ([5], 1, 1)]

/-- A leaf that has learnt them. -/
def leaf0 : Leaf (List (AttObs Empty)) := ⟨true, [(0, 2), (1, 2)], observed par1 seen0, 0, 0, 0⟩

/-- It is split at 1 on the attribute; the first branch starts with class 0, the second with class 1. -/
example : par1.start.length = 1 ∧ 0 < par1.bins ∧ (∀ r ∈ seen0, r.1.length = 1 ∧ 0 ≤ r.2.1 ∧ 0 < r.2.2) ∧
    (match attempt (par1.cfg .mc 0 4) (par1.ev .mc ⟨[5], 1, 1, true, []⟩) leaf0 with
      | .split (.num t) _ (.cons 0 (.leaf a) (.cons 1 (.leaf b) .nil)) => some (t.att, t.value, a.stats, b.stats)
      | _ => none) = some (0, 1, [(0, 2)], [(1, 2)]) := by
  refine ⟨rfl, by decide, ?_, by decide +kernel⟩
  decide +kernel

end Verif.Trees.HL
