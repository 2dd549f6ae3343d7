import Verif.Prototype.RSLVQ
import Mathlib.Data.List.Perm.Subperm
import Mathlib.Analysis.SpecialFunctions.Log.Basic
import Mathlib.Data.Real.Sqrt

/-!
# Robust soft learning vector quantization: runs (C221-C223)
-/

namespace Verif.Prototype

variable {F : Type} [Field F] [LinearOrder F] [IsStrictOrderedRing F]

/-! ### What training leaves alone -/

/-- The same up to the positions of the prototypes. -/
def Alike (s s' : S F) : Prop :=
  s'.ps.map Prod.snd = s.ps.map Prod.snd ∧ s'.classes = s.classes ∧ s'.ready = s.ready ∧ s'.fresh = s.fresh ∧ s'.given = s.given

theorem Alike.refl (s : S F) : Alike s s := ⟨rfl, rfl, rfl, rfl, rfl⟩

theorem Alike.trans {a b c : S F} (h : Alike a b) (h' : Alike b c) : Alike a c :=
  ⟨h'.1.trans h.1, h'.2.1.trans h.2.1, h'.2.2.1.trans h.2.2.1, h'.2.2.2.1.trans h.2.2.2.1, h'.2.2.2.2.trans h.2.2.2.2⟩

theorem set_labels (ps : List (Proto F)) (j : Nat) (q : Proto F) (w : List F) (h : ps[j]? = some q) :
    (ps.set j (w, q.2)).map Prod.snd = ps.map Prod.snd := by
  rw [List.map_set]
  apply List.ext_getElem?
  intro i
  rw [List.getElem?_set]
  by_cases hi : j = i
  · subst hi
    have := (List.getElem?_eq_some_iff.1 h).1
    simp [this, h]
    rw [← (List.getElem?_eq_some_iff.1 h).2]
  · simp [hi]

theorem update_alike (cfg : Cfg F) (s : S F) (j : Nat) (x : List F) (y : Int) : Alike s (update cfg s j x y) := by
  unfold update
  cases hq : s.ps[j]? with
  | none => exact Alike.refl s
  | some q =>
    simp only []
    split
    · exact ⟨set_labels _ _ _ _ hq, rfl, rfl, rfl, rfl⟩
    · exact ⟨set_labels _ _ _ _ hq, rfl, rfl, rfl, rfl⟩

/-- With a prototype of its class a row can be learned. -/
theorem trainRow_ok (cfg : Cfg F) (s : S F) (x : List F) (y : Int) (h : y ∈ s.ps.map Prod.snd) :
    ∃ s', trainRow cfg s x y = .ok s' ∧ Alike s s' := by
  obtain ⟨h1, h2⟩ := scan_spec x y s.ps [] (none, none) (by simp [BestOf]) (by simp [BestOf])
  simp only [List.nil_append, List.length_nil] at h1 h2
  rw [trainRow]
  rcases hs : scan x y 0 s.ps (none, none) with ⟨_ | ⟨jc, dc⟩, _ | ⟨ji, di⟩⟩
  · exact ⟨s, rfl, Alike.refl s⟩
  · exfalso
    rw [hs] at h1
    obtain ⟨q, hq, rfl⟩ := List.mem_map.1 h
    obtain ⟨i, hi⟩ := List.getElem?_of_mem hq
    exact h1 i q hi rfl
  · exact ⟨s, rfl, Alike.refl s⟩
  · simp only []
    split
    · exact ⟨_, rfl, (update_alike cfg s _ x y).trans (update_alike cfg _ _ x y)⟩
    · exact ⟨s, rfl, Alike.refl s⟩

theorem optimize_ok (cfg : Cfg F) (rows : List (List F × Int)) (s : S F) (h : ∀ r ∈ rows, r.2 ∈ s.ps.map Prod.snd) :
    ∃ s', optimize cfg s rows = .ok s' ∧ Alike s s' := by
  induction rows generalizing s with
  | nil => exact ⟨s, rfl, Alike.refl s⟩
  | cons r rows ih =>
    obtain ⟨s1, h1, h2⟩ := trainRow_ok cfg s r.1 r.2 (h r List.mem_cons_self)
    obtain ⟨s2, h3, h4⟩ := ih s1 (fun r' hr' => by rw [h2.1]; exact h r' (List.mem_cons_of_mem _ hr'))
    exact ⟨s2, by rw [optimize, h1]; exact h3, h2.trans h4⟩

theorem trainRow_alike (cfg : Cfg F) (s s' : S F) (x : List F) (y : Int) (h : trainRow cfg s x y = .ok s') : Alike s s' := by
  rw [trainRow] at h
  rcases hs : scan x y 0 s.ps (none, none) with ⟨_ | ⟨jc, dc⟩, _ | ⟨ji, di⟩⟩
  · rw [hs] at h; cases h; exact Alike.refl _
  · rw [hs] at h; cases h
  · rw [hs] at h; cases h; exact Alike.refl _
  · rw [hs] at h
    simp only [] at h
    split at h
    · cases h; exact (update_alike cfg s _ x y).trans (update_alike cfg _ _ x y)
    · cases h; exact Alike.refl _

theorem optimize_alike (cfg : Cfg F) (rows : List (List F × Int)) (s s' : S F) (h : optimize cfg s rows = .ok s') : Alike s s' := by
  induction rows generalizing s with
  | nil => cases h; exact Alike.refl _
  | cons r rows ih =>
    rw [optimize] at h
    cases h1 : trainRow cfg s r.1 r.2 with
    | error e => rw [h1] at h; cases h
    | ok s1 =>
      rw [h1] at h
      exact (trainRow_alike cfg s s1 _ _ h1).trans (ih s1 h)

theorem optimize_append (cfg : Cfg F) (l1 l2 : List (List F × Int)) (s : S F) :
    optimize cfg s (l1 ++ l2) = (optimize cfg s l1).bind fun s => optimize cfg s l2 := by
  induction l1 generalizing s with
  | nil => rfl
  | cons r l1 ih =>
    rw [List.cons_append, optimize, optimize]
    cases h1 : trainRow cfg s r.1 r.2 with
    | error e => rfl
    | ok s1 => exact ih s1

/-! ### The prototypes of the classes -/

theorem setRange_get (v : Nat → Proto F) (base n : Nat) (l : List (Proto F)) (k : Nat) :
    ((List.range n).foldl (fun ps r => ps.set (base + r) (v r)) l)[k]? =
      if base ≤ k ∧ k < base + n ∧ k < l.length then some (v (k - base)) else l[k]? := by
  induction n with
  | zero =>
    have : ¬ (base ≤ k ∧ k < base + 0 ∧ k < l.length) := by omega
    rw [if_neg this]
    rfl
  | succ n ih =>
    rw [List.range_succ, List.foldl_append]
    simp only [List.foldl_cons, List.foldl_nil]
    rw [List.getElem?_set]
    have hlen : ∀ n, ((List.range n).foldl (fun ps r => ps.set (base + r) (v r)) l).length = l.length := by
      intro n
      induction n with
      | zero => rfl
      | succ n ihn => rw [List.range_succ, List.foldl_append]; simpa using ihn
    by_cases hk : base + n = k
    · rw [if_pos hk, hlen]
      by_cases hkl : k < l.length
      · rw [if_pos (by omega), if_pos ⟨by omega, by omega, hkl⟩]
        congr 2
        omega
      · rw [if_neg (by omega), if_neg (by omega), List.getElem?_eq_none (by omega)]
    · rw [if_neg hk, ih]
      by_cases hc : base ≤ k ∧ k < base + n ∧ k < l.length
      · rw [if_pos hc, if_pos ⟨hc.1, by omega, hc.2.2⟩]
      · rw [if_neg hc, if_neg (by omega)]

theorem setRange_length (v : Nat → Proto F) (base n : Nat) (l : List (Proto F)) :
    ((List.range n).foldl (fun ps r => ps.set (base + r) (v r)) l).length = l.length := by
  induction n with
  | zero => rfl
  | succ n ihn => rw [List.range_succ, List.foldl_append]; simpa using ihn

/-- There are `ppc` prototypes for every class, and those of the classes initialised have its label. -/
structure Inv (cfg : Cfg F) (s : S F) : Prop where
  ps : s.ps.length = s.classes.length * cfg.ppc
  ready : s.ready.length = s.classes.length
  labels : ∀ (i : Nat) (c : Int), s.classes[i]? = some c → s.ready[i]? = some true → ∀ r < cfg.ppc, (s.ps[i * cfg.ppc + r]?).map Prod.snd = some c

theorem block_index (p i j r r' : Nat) (h : i * p + r = j * p + r') (hr : r < p) (hr' : r' < p) : i = j := by
  have h1 : (i * p + r) / p = i := by
    rw [Nat.mul_comm, Nat.mul_add_div (by omega), Nat.div_eq_of_lt hr, Nat.add_zero]
  have h2 : (j * p + r') / p = j := by
    rw [Nat.mul_comm, Nat.mul_add_div (by omega), Nat.div_eq_of_lt hr', Nat.add_zero]
  rw [← h1, h, h2]

theorem initClass_inv (cfg : Cfg F) (a : Call F) (nf : Nat) (s : S F) (idx : Nat) (h : Inv cfg s) :
    Inv cfg (initClass cfg a nf s idx) ∧ (initClass cfg a nf s idx).classes = s.classes ∧ (initClass cfg a nf s idx).given = s.given ∧
      (∀ i : Nat, s.ready[i]? = some true → (initClass cfg a nf s idx).ready[i]? = some true) ∧
      (∀ c, s.classes[idx]? = some c → c ∈ a.rows.map Prod.snd → (initClass cfg a nf s idx).ready[idx]? = some true) := by
  unfold initClass
  cases hc : s.classes[idx]? with
  | none => exact ⟨h, rfl, rfl, fun _ hi => hi, fun c hcc => by cases hcc⟩
  | some c =>
    have hidx := (List.getElem?_eq_some_iff.1 hc).1
    simp only []
    by_cases hcond : s.ready.getD idx false = false ∧ c ∈ a.rows.map Prod.snd
    · rw [if_pos hcond]
      refine ⟨⟨?_, ?_, ?_⟩, rfl, rfl, ?_, ?_⟩
      · simp only [setRange_length]; exact h.ps
      · simp only [List.length_set]; exact h.ready
      · intro i c' hi hri r hr
        simp only at hi hri ⊢
        rw [setRange_get]
        have hlt : i * cfg.ppc + r < s.ps.length := by
          rw [h.ps]
          have hi' := (List.getElem?_eq_some_iff.1 hi).1
          calc i * cfg.ppc + r < i * cfg.ppc + cfg.ppc := by omega
            _ = (i + 1) * cfg.ppc := by rw [Nat.succ_mul]
            _ ≤ _ := Nat.mul_le_mul_right _ (by omega)
        by_cases hii : i = idx
        · subst hii
          rw [hc] at hi
          cases hi
          rw [if_pos ⟨by omega, by omega, hlt⟩]
          rfl
        · rw [if_neg]
          · refine h.labels i c' hi ?_ r hr
            rwa [List.getElem?_set_ne (Ne.symm hii)] at hri
          · rintro ⟨g1, g2, _⟩
            exact hii (block_index cfg.ppc i idx r (i * cfg.ppc + r - idx * cfg.ppc) (by omega) hr (by omega))
      · intro i hi
        simp only
        rw [List.getElem?_set]
        by_cases hii : idx = i
        · subst hii
          simp [(List.getElem?_eq_some_iff.1 hi).1]
        · rw [if_neg hii]; exact hi
      · intro c' _ _
        simp only
        rw [List.getElem?_set, if_pos rfl, if_pos (by rw [h.ready]; exact hidx)]
    · rw [if_neg hcond]
      refine ⟨h, rfl, rfl, fun _ hi => hi, ?_⟩
      intro c' hcc hin
      cases hcc
      have hr : s.ready.getD idx false ≠ false := fun hf => hcond ⟨hf, hin⟩
      have hlt : idx < s.ready.length := by rw [h.ready]; exact hidx
      rw [List.getD_eq_getElem?_getD, List.getElem?_eq_getElem hlt] at hr
      rw [List.getElem?_eq_getElem hlt]
      simpa using hr

theorem initAll_inv (cfg : Cfg F) (a : Call F) (nf : Nat) (l : List Nat) (s : S F) (h : Inv cfg s) :
    Inv cfg (l.foldl (initClass cfg a nf) s) ∧ (l.foldl (initClass cfg a nf) s).classes = s.classes ∧ (l.foldl (initClass cfg a nf) s).given = s.given ∧
      (∀ i : Nat, s.ready[i]? = some true → (l.foldl (initClass cfg a nf) s).ready[i]? = some true) ∧
      (∀ (i : Nat) (c : Int), i ∈ l → s.classes[i]? = some c → c ∈ a.rows.map Prod.snd → (l.foldl (initClass cfg a nf) s).ready[i]? = some true) := by
  induction l generalizing s with
  | nil => exact ⟨h, rfl, rfl, fun _ hi => hi, by simp⟩
  | cons j l ih =>
    obtain ⟨h1, h2, h3, h4, h5⟩ := initClass_inv cfg a nf s j h
    obtain ⟨g1, g2, g3, g4, g5⟩ := ih _ h1
    refine ⟨g1, g2.trans h2, g3.trans h3, fun i hi => g4 i (h4 i hi), ?_⟩
    intro i c hi hc hin
    rcases List.mem_cons.1 hi with rfl | hi
    · exact g4 i (h5 c hc hin)
    · exact g5 i c hi (by rw [h2]; exact hc) hin

/-- The classes of the first batch, or those declared. -/
def declared (a : Call F) : List Int := if a.classes = [] then unique (a.rows.map Prod.snd) else a.classes

theorem setClasses_spec (a : Call F) (s s1 : S F) (h : setClasses a s = .ok s1) :
    s1.given = s.given ∧ s1.fresh = s.fresh ∧ (s.fresh = false → s1 = s) ∧
      (s.fresh = true → s1.classes = declared a ∧ s1.ready = List.replicate (declared a).length false) := by
  rw [setClasses] at h
  by_cases hf : s.fresh = true
  · rw [if_pos hf] at h
    change (if (List.range (declared a).length).all (fun i => (declared a).contains (i : Int)) then _ else _) = _ at h
    split at h
    · cases h
      exact ⟨rfl, rfl, fun hc => absurd hf (by rw [hc]; simp), fun _ => ⟨rfl, rfl⟩⟩
    · cases h
  · rw [if_neg hf] at h
    cases h
    exact ⟨rfl, rfl, fun _ => rfl, fun hc => absurd hc hf⟩

/-- One call, without initial prototypes. -/
theorem fit_spec (cfg : Cfg F) (hcfg : cfg.initial = none) (s s' : S F) (hs : s.fresh = true ∨ Inv cfg s) (a : Call F)
    (h : partialFit cfg s a = .ok s') :
    s'.fresh = false ∧ Inv cfg s' ∧ (s.fresh = false → s'.classes = s.classes) ∧ (s.fresh = true → s'.classes = declared a) ∧
      (s.fresh = false → ∀ i : Nat, s.ready[i]? = some true → s'.ready[i]? = some true) ∧
      (∀ (i : Nat) (c : Int), s'.classes[i]? = some c → c ∈ a.rows.map Prod.snd → s'.ready[i]? = some true) := by
  rw [partialFit] at h
  split at h
  · cases h
  cases hrows : a.rows with
  | nil => simp only [hrows] at h; cases h
  | cons r rs =>
    simp only [hrows] at h
    rw [← hrows] at h ⊢
    simp only [bind, Except.bind] at h
    cases h1 : setClasses a s with
    | error e => rw [h1] at h; cases h
    | ok s1 =>
      rw [h1] at h
      simp only [setPrototypes, hcfg] at h
      -- the state before the classes are initialised
      have hb : Inv cfg (if s1.fresh = true then { s1 with ps := (List.range (s1.classes.length * cfg.ppc)).map a.memory } else s1) ∧
          (s.fresh = false → s1 = s) ∧ (s.fresh = true → s1.classes = declared a) := by
        obtain ⟨c1, c2, c3, c4⟩ := setClasses_spec a s s1 h1
        by_cases hf : s.fresh = true
        · obtain ⟨c5, c6⟩ := c4 hf
          refine ⟨?_, c3, fun _ => c5⟩
          rw [if_pos (c2.trans hf)]
          refine ⟨by simp, by simp only [c6, c5, List.length_replicate], fun i c _ hr => ?_⟩
          simp only [c6, List.getElem?_replicate] at hr
          split at hr
          · cases hr
          · cases hr
        · have := c3 (by simpa using hf)
          subst this
          rw [if_neg hf]
          rcases hs with hs | hs
          · exact absurd hs hf
          · exact ⟨hs, fun _ => rfl, fun hc => absurd hc hf⟩
      obtain ⟨hb1, hb2, hb3⟩ := hb
      have hcl : (if s1.fresh = true then { s1 with ps := (List.range (s1.classes.length * cfg.ppc)).map a.memory } else s1).classes = s1.classes := by
        split <;> rfl
      have hrd : (if s1.fresh = true then { s1 with ps := (List.range (s1.classes.length * cfg.ppc)).map a.memory } else s1).ready = s1.ready := by
        split <;> rfl
      generalize hs2 : (if s1.fresh = true then { s1 with ps := (List.range (s1.classes.length * cfg.ppc)).map a.memory } else s1) = s2 at h hb1 hcl hrd
      obtain ⟨g1, g2, g3, g4, g5⟩ := initAll_inv cfg a r.1.length (List.range s2.classes.length) s2 hb1
      cases h3 : optimize cfg { (List.range s2.classes.length).foldl (initClass cfg a r.1.length) s2 with fresh := false } a.rows with
      | error e => rw [h3] at h; cases h
      | ok s3 =>
        rw [h3] at h
        have hcfg' : ¬ (cfg.shared = true ∧ cfg.initial.isSome = true) := by rw [hcfg]; simp
        simp only [Option.isSome_none, Bool.false_eq_true, and_false, if_false, Except.ok.injEq] at h
        subst h
        obtain ⟨k1, k2, k3, k4, k5⟩ := optimize_alike cfg _ _ _ h3
        simp only at k1 k2 k3 k4 k5
        refine ⟨k4, ⟨?_, ?_, ?_⟩, ?_, ?_, ?_, ?_⟩
        · have := congrArg List.length k1
          simp only [List.length_map] at this
          rw [this, k2]; exact g1.ps
        · rw [k3, k2]; exact g1.ready
        · intro i c hc hr q hq
          rw [k2] at hc
          rw [k3] at hr
          have := g1.labels i c hc hr q hq
          rw [← List.getElem?_map, k1, List.getElem?_map]
          exact this
        · intro hf
          rw [k2, g2, hcl, hb2 hf]
        · intro hf
          rw [k2, g2, hcl, hb3 hf]
        · intro hf i hi
          rw [k3]
          refine g4 i ?_
          rw [hrd, hb2 hf]
          exact hi
        · intro i c hc hin
          rw [k2, g2] at hc
          rw [k3]
          have hlt := (List.getElem?_eq_some_iff.1 hc).1
          exact g5 i c (List.mem_range.2 hlt) hc hin

/-- Calls. -/
theorem fits_spec (cfg : Cfg F) (hcfg : cfg.initial = none) (calls : List (Call F)) (s s' : S F) (hs : s.fresh = true ∨ Inv cfg s)
    (h : fits cfg s calls = .ok s') (hne : calls ≠ [] ∨ Inv cfg s ∧ s.fresh = false) :
    Inv cfg s' ∧ s'.fresh = false ∧ (s.fresh = false → s'.classes = s.classes ∧ ∀ i : Nat, s.ready[i]? = some true → s'.ready[i]? = some true) ∧
      (∀ a ∈ calls, ∀ (i : Nat) (c : Int), s'.classes[i]? = some c → c ∈ a.rows.map Prod.snd → s'.ready[i]? = some true) := by
  induction calls generalizing s with
  | nil =>
    cases h
    rcases hne with hne | hne
    · exact absurd rfl hne
    · exact ⟨hne.1, hne.2, fun _ => ⟨rfl, fun _ hi => hi⟩, by simp⟩
  | cons a l ih =>
    rw [fits] at h
    cases h1 : partialFit cfg s a with
    | error e => rw [h1] at h; cases h
    | ok s1 =>
      rw [h1] at h
      obtain ⟨g1, g2, g3, g4, g5, g6⟩ := fit_spec cfg hcfg s s1 hs a h1
      obtain ⟨k1, k2, k3, k4⟩ := ih s1 (.inr g2) h (.inr ⟨g2, g1⟩)
      obtain ⟨m1, m2⟩ := k3 g1
      refine ⟨k1, k2, fun hf => ⟨m1.trans (g3 hf), fun i hi => m2 i (g5 hf i hi)⟩, ?_⟩
      intro b hb i c hc hin
      rcases List.mem_cons.1 hb with rfl | hb
      · exact m2 i (g6 i c (by rw [← m1]; exact hc) hin)
      · exact k4 b hb i c hc hin

/-- **C221**, partial: without initial prototypes, once every class has occurred in some batch, the answer is one of
the classes. -/
theorem C221_known_partial (cfg : Cfg F) (hcfg : cfg.initial = none) (hs : 0 < cfg.sigma) (hp : 0 < cfg.ppc) (calls : List (Call F)) (hne : calls ≠ []) (s : S F)
    (h : fits cfg (blank cfg) calls = .ok s) (hseen : ∀ c ∈ s.classes, ∃ a ∈ calls, c ∈ a.rows.map Prod.snd) (hcl : s.classes ≠ []) (x : List F) :
    ∃ c, predict cfg s x = .ok c ∧ c ∈ s.classes := by
  obtain ⟨h1, h2, h3, h4⟩ := fits_spec cfg hcfg calls (blank cfg) s (.inl rfl) h (.inl hne)
  have hlen : 0 < s.ps.length := by
    rw [h1.ps]
    exact Nat.mul_pos (List.length_pos_iff.2 hcl) hp
  obtain ⟨j, q, hq, hpr⟩ := C219_nearest cfg hs s (List.length_pos_iff.1 hlen) x
  refine ⟨q.2, hpr, ?_⟩
  have hj := (List.getElem?_eq_some_iff.1 hq.1).1
  rw [h1.ps] at hj
  have hdiv : j / cfg.ppc < s.classes.length := Nat.div_lt_of_lt_mul (by rw [Nat.mul_comm]; exact hj)
  have hc : s.classes[j / cfg.ppc]? = some s.classes[j / cfg.ppc] := List.getElem?_eq_getElem hdiv
  obtain ⟨a, ha, hin⟩ := hseen _ (List.getElem_mem hdiv)
  have hr := h4 a ha _ _ hc hin
  have := h1.labels _ _ hc hr (j % cfg.ppc) (Nat.mod_lt _ hp)
  have hjj : j / cfg.ppc * cfg.ppc + j % cfg.ppc = j := by rw [Nat.mul_comm]; exact Nat.div_add_mod j cfg.ppc
  rw [hjj, hq.1] at this
  simp only [Option.map_some, Option.some.injEq] at this
  rw [this]
  exact List.getElem_mem hdiv

/-- **C221**: a batch whose labels are classes (declared, or all labels of the first batch) is learned without an
error. -/
theorem C221_learns (cfg : Cfg F) (hcfg : cfg.initial = none) (hp : 0 < cfg.ppc) (s : S F) (hs : Inv cfg s) (hf : s.fresh = false)
    (a : Call F) (hne : a.rows ≠ []) (ha : ∀ y ∈ a.rows.map Prod.snd, y ∈ s.classes) : ∃ s', partialFit cfg s a = .ok s' := by
  rw [partialFit, if_neg (by simp only [not_and, not_not]; exact fun _ => ha)]
  cases hrows : a.rows with
  | nil => exact absurd hrows hne
  | cons r rs =>
    simp only [bind, Except.bind]
    rw [← hrows]
    simp only [setClasses, hf, Bool.false_eq_true, if_false, setPrototypes, hcfg]
    obtain ⟨g1, g2, g3, g4, g5⟩ := initAll_inv cfg a r.1.length (List.range s.classes.length) s hs
    obtain ⟨s', k1, k2⟩ := optimize_ok cfg a.rows { (List.range s.classes.length).foldl (initClass cfg a r.1.length) s with fresh := false } (by
      intro row hrow
      obtain ⟨i, hi⟩ := List.getElem?_of_mem (ha row.2 (List.mem_map_of_mem hrow))
      have hlt := (List.getElem?_eq_some_iff.1 hi).1
      have hr := g5 i row.2 (List.mem_range.2 hlt) hi (List.mem_map_of_mem hrow)
      have := g1.labels i row.2 (by rw [g2]; exact hi) hr 0 hp
      rw [← List.getElem?_map] at this
      exact List.mem_of_getElem? this)
    exact ⟨_, by rw [k1]⟩

/-- C221 (violated): a class declared but not in the first batch has prototypes made of whatever the memory held: their label can be
any number, and they are nearest to any row. -/
theorem C221_garbage_violated (cfg : Cfg F) (hcfg : cfg.initial = none) (hs : 0 < cfg.sigma) (hp : cfg.ppc = 1) (a b : F) (hab : a ≠ b) (z : Int)
    (noise : Nat → Nat → Nat → F) :
    ∃ s, partialFit cfg (blank cfg) ⟨[([a], 0)], [0, 1], fun _ => ([b], z), noise⟩ = .ok s ∧ s.classes = [0, 1] ∧ predict cfg s [b] = .ok z := by
  have hm : classMean 1 [([a], (0 : Int))] 0 = [a] := by simp [classMean]
  have hd : ¬ (b - a) * (b - a) ≤ 0 := by
    rw [not_le]
    exact mul_self_pos.2 (sub_ne_zero.2 (Ne.symm hab))
  have hd' : (a - b) * (a - b) > 0 := mul_self_pos.2 (sub_ne_zero.2 hab)
  -- after the classes are set up
  have hinit : setPrototypes cfg ⟨[([a], 0)], [0, 1], fun _ => ([b], z), noise⟩ 1
      { blank cfg with classes := [0, 1], ready := [false, false] } =
      .ok ⟨[0, 1], [true, false], [([a], 0), ([b], z)], fun _ _ => (0, 0), false, []⟩ := by
    simp [setPrototypes, hcfg, blank, hp, List.range_succ, initClass, seedProto, hm]
  have htrain : trainRow cfg ⟨[0, 1], [true, false], [([a], 0), ([b], z)], fun _ _ => (0, 0), false, []⟩ [a] 0 =
      .ok ⟨[0, 1], [true, false], [([a], 0), ([b], z)], fun _ _ => (0, 0), false, []⟩ := by
    by_cases hz : z = 0
    · simp [trainRow, scan, hz, closer, sq]
    · simp only [trainRow, scan, hz, closer, sq, if_true, if_false, List.zipWith_cons_cons, List.zipWith_nil_left, List.map_cons, List.map_nil,
        List.sum_cons, List.sum_nil, add_zero, sub_self, mul_zero]
      rw [if_neg (not_lt.2 hd'.le)]
  refine ⟨⟨[0, 1], [true, false], [([a], 0), ([b], z)], fun _ _ => (0, 0), false, []⟩, ?_, rfl, ?_⟩
  · have hset : setClasses (⟨[([a], 0)], [0, 1], fun _ => ([b], z), noise⟩ : Call F) (blank cfg) =
        .ok { blank cfg with classes := [0, 1], ready := [false, false] } := by
      simp [setClasses, blank, List.range_succ]
    simp only [partialFit, bind, Except.bind, hset]
    rw [if_neg (by simp [blank])]
    simp only [List.length_cons, List.length_nil, Nat.zero_add, hinit, optimize, htrain, hcfg, Option.isSome_none, Bool.false_eq_true, and_false, if_false]
  · have hlt : cost cfg [b] [a] < cost cfg [b] [b] := by
      rw [cost_lt cfg hs]
      simp only [sq, List.zipWith_cons_cons, List.zipWith_nil_left, List.map_cons, List.map_nil, List.sum_cons, List.sum_nil, add_zero, sub_self, mul_zero]
      exact not_le.1 hd
    simp only [predict, List.map_cons, List.map_nil, argmax, argmaxFrom, hlt, if_true]
    rfl

/-! ### Batch after batch -/

theorem initAll_ready (cfg : Cfg F) (a : Call F) (nf : Nat) (l : List Nat) (s : S F) (h : ∀ (i : Nat), i ∈ l → s.ready.getD i false = true) :
    l.foldl (initClass cfg a nf) s = s := by
  induction l with
  | nil => rfl
  | cons j l ih =>
    have hj : initClass cfg a nf s j = s := by
      unfold initClass
      cases s.classes[j]? with
      | none => rfl
      | some c => simp only []; rw [if_neg]; rw [h j List.mem_cons_self]; simp
    rw [List.foldl_cons, hj]
    exact ih fun i hi => h i (List.mem_cons_of_mem _ hi)

/-- Once all prototypes are initialised a call just trains. -/
theorem fit_ready (cfg : Cfg F) (hcfg : cfg.initial = none) (s : S F) (hf : s.fresh = false)
    (hr : ∀ i < s.classes.length, s.ready.getD i false = true) (a : Call F) (hne : a.rows ≠ []) (ha : ∀ y ∈ a.rows.map Prod.snd, y ∈ s.classes) :
    partialFit cfg s a = optimize cfg s a.rows := by
  rw [partialFit, if_neg (by simp only [not_and, not_not]; exact fun _ => ha)]
  cases hrows : a.rows with
  | nil => exact absurd hrows hne
  | cons r rs =>
    simp only [bind, Except.bind]
    rw [← hrows]
    simp only [setClasses, hf, Bool.false_eq_true, if_false, setPrototypes, hcfg]
    rw [initAll_ready cfg a _ _ s fun i hi => hr i (List.mem_range.1 hi)]
    have : { s with fresh := false } = s := by rw [← hf]
    rw [this]
    cases optimize cfg s a.rows with
    | error e => rfl
    | ok s' => simp

/-- **C222**, partial: without initial prototypes, once all classes have prototypes, learning two batches one after the other
is learning them as one batch. -/
theorem C222_batches_partial (cfg : Cfg F) (hcfg : cfg.initial = none) (s : S F) (hf : s.fresh = false)
    (hr : ∀ i < s.classes.length, s.ready.getD i false = true) (a b c : Call F) (ha : a.rows ≠ []) (hb : b.rows ≠ []) (hc : c.rows = a.rows ++ b.rows)
    (hy : ∀ y ∈ c.rows.map Prod.snd, y ∈ s.classes) : partialFit cfg s c = fits cfg s [a, b] := by
  have hya : ∀ y ∈ a.rows.map Prod.snd, y ∈ s.classes := fun y h => hy y (by rw [hc]; simp only [List.map_append, List.mem_append]; exact .inl h)
  have hyb : ∀ y ∈ b.rows.map Prod.snd, y ∈ s.classes := fun y h => hy y (by rw [hc]; simp only [List.map_append, List.mem_append]; exact .inr h)
  rw [fit_ready cfg hcfg s hf hr c (by rw [hc]; simp [ha]) hy, hc, optimize_append, fits, fit_ready cfg hcfg s hf hr a ha hya]
  cases h1 : optimize cfg s a.rows with
  | error e => rfl
  | ok s1 =>
    obtain ⟨k1, k2, k3, k4, k5⟩ := optimize_alike cfg _ _ _ h1
    simp only [Except.bind, fits]
    rw [fit_ready cfg hcfg s1 (k4.trans hf) (by rw [k2, k3]; exact hr) b hb (by rw [k2]; exact hyb)]
    cases optimize cfg s1 b.rows with
    | error e => rfl
    | ok s2 => rfl

/-- Squared means are not used with vanilla gradient descent. -/
theorem trainRow_same (cfg : Cfg F) (ha : cfg.adadelta = false) (s t : S F) (h : s.ps = t.ps) (x : List F) (y : Int) :
    (∃ e, trainRow cfg s x y = .error e ∧ trainRow cfg t x y = .error e) ∨
      ∃ s' t', trainRow cfg s x y = .ok s' ∧ trainRow cfg t x y = .ok t' ∧ s'.ps = t'.ps := by
  have hup : ∀ (s t : S F) (j : Nat), s.ps = t.ps → (update cfg s j x y).ps = (update cfg t j x y).ps := by
    intro s t j h
    simp only [update, h]
    cases t.ps[j]? with
    | none => exact h
    | some q => simp only [ha, Bool.false_eq_true, if_false]
  simp only [trainRow, h]
  rcases scan x y 0 t.ps (none, none) with ⟨_ | ⟨jc, dc⟩, _ | ⟨ji, di⟩⟩
  · exact .inr ⟨s, t, rfl, rfl, h⟩
  · exact .inl ⟨_, rfl, rfl⟩
  · exact .inr ⟨s, t, rfl, rfl, h⟩
  · simp only []
    split
    · exact .inr ⟨_, _, rfl, rfl, hup _ _ ji (hup _ _ jc h)⟩
    · exact .inr ⟨s, t, rfl, rfl, h⟩

theorem optimize_same (cfg : Cfg F) (ha : cfg.adadelta = false) (rows : List (List F × Int)) (s t : S F) (h : s.ps = t.ps) :
    (optimize cfg s rows).map (·.ps) = (optimize cfg t rows).map (·.ps) := by
  induction rows generalizing s t with
  | nil => simp only [optimize, Except.map, h]
  | cons r rows ih =>
    rw [optimize, optimize]
    rcases trainRow_same cfg ha s t h r.1 r.2 with ⟨e, h1, h2⟩ | ⟨s', t', h1, h2, h3⟩
    · rw [h1, h2]
    · rw [h1, h2]; exact ih s' t' h3

/-- The caller's initial prototypes, given as a list, are what they were; one call has set the classes. -/
theorem given_list (cfg : Cfg F) (hsh : cfg.shared = false) (s s' : S F) (a : Call F) (h : partialFit cfg s a = .ok s') :
    s'.given = s.given ∧ (cfg.initial.isSome → s'.fresh = false) := by
  rw [partialFit] at h
  split at h
  · cases h
  cases hrows : a.rows with
  | nil => simp only [hrows] at h; cases h
  | cons r rs =>
    simp only [hrows] at h
    simp only [bind, Except.bind] at h
    cases h1 : setClasses a s with
    | error e => rw [h1] at h; cases h
    | ok s1 =>
      rw [h1] at h
      have hg1 : s1.given = s.given := (setClasses_spec a s s1 h1).1
      simp only [] at h
      cases h2 : setPrototypes cfg a r.1.length s1 with
      | error e => rw [h2] at h; cases h
      | ok s2 =>
        rw [h2] at h
        simp only [] at h
        have hg2 : s2.given = s1.given ∧ s2.fresh = false := by
          rw [setPrototypes] at h2
          cases hi : cfg.initial with
          | none =>
            rw [hi] at h2
            simp only [Except.ok.injEq] at h2
            subst h2
            refine ⟨?_, rfl⟩
            simp only
            have : ∀ (l : List Nat) (s : S F), (l.foldl (initClass cfg a r.1.length) s).given = s.given := by
              intro l
              induction l with
              | nil => intro s; rfl
              | cons j l ih =>
                intro s
                rw [List.foldl_cons, ih]
                unfold initClass
                cases s.classes[j]? with
                | none => rfl
                | some c => simp only []; split <;> rfl
            rw [this]
            split <;> rfl
          | some ini =>
            rw [hi] at h2
            simp only [] at h2
            split at h2
            · cases h2
            · split at h2
              · cases h2; exact ⟨rfl, rfl⟩
              · cases h2
        cases h3 : optimize cfg s2 (r :: rs) with
        | error e => rw [h3] at h; cases h
        | ok s3 =>
          rw [h3] at h
          simp only [hsh, Bool.false_eq_true, false_and, if_false, Except.ok.injEq] at h
          subst h
          obtain ⟨k1, k2, k3, k4, k5⟩ := optimize_alike cfg _ _ _ h3
          exact ⟨k5.trans (hg2.1.trans hg1), fun _ => k4.trans hg2.2⟩

theorem given_lists (cfg : Cfg F) (hsh : cfg.shared = false) (hi : cfg.initial.isSome) (calls : List (Call F)) (s s' : S F) (h : fits cfg s calls = .ok s') :
    s'.given = s.given ∧ (calls ≠ [] → s'.fresh = false) := by
  induction calls generalizing s with
  | nil => cases h; exact ⟨rfl, fun hc => absurd rfl hc⟩
  | cons a l ih =>
    rw [fits] at h
    cases h1 : partialFit cfg s a with
    | error e => rw [h1] at h; cases h
    | ok s1 =>
      rw [h1] at h
      obtain ⟨g1, g2⟩ := given_list cfg hsh s s1 a h1
      obtain ⟨k1, k2⟩ := ih s1 h
      refine ⟨k1.trans g1, fun _ => ?_⟩
      cases l with
      | nil => cases h; exact g2 hi
      | cons b l => exact k2 (by simp)

/-- C222 (violated): with initial prototypes given as a list every call starts from them again: what was learned by the
calls before has no influence on the prototypes. -/
theorem C222_forgets_violated (cfg : Cfg F) (ha : cfg.adadelta = false) (hsh : cfg.shared = false) (hi : cfg.initial.isSome) (l1 l2 : List (Call F))
    (hl1 : l1 ≠ []) (hl2 : l2 ≠ []) (s1 s2 : S F) (h1 : fits cfg (blank cfg) l1 = .ok s1) (h2 : fits cfg (blank cfg) l2 = .ok s2)
    (hc : s1.classes = s2.classes) (a : Call F) : (partialFit cfg s1 a).map (·.ps) = (partialFit cfg s2 a).map (·.ps) := by
  obtain ⟨g1, f1⟩ := given_lists cfg hsh hi l1 _ _ h1
  obtain ⟨g2, f2⟩ := given_lists cfg hsh hi l2 _ _ h2
  have f1 := f1 hl1
  have f2 := f2 hl2
  have hg : s1.given = s2.given := g1.trans g2.symm
  obtain ⟨ini, hini⟩ := Option.isSome_iff_exists.1 hi
  unfold partialFit
  rw [f1, f2, hc]
  split
  · rfl
  cases a.rows with
  | nil => rfl
  | cons r rs =>
    simp only [bind, Except.bind, setClasses, f1, f2, Bool.false_eq_true, if_false, setPrototypes, hini, hg, hc]
    by_cases hA : s2.given.length ≠ s2.classes.length * cfg.ppc ∨ (s2.given.any fun q => q.1.length != r.1.length) = true
    · rw [if_pos hA]; rw [if_pos hA]
    · rw [if_neg hA]; rw [if_neg hA]
      by_cases hB : ((s2.given.all fun q => s2.classes.contains q.2) && (s2.classes.all fun c => (s2.given.map Prod.snd).contains c)) = true
      · rw [if_pos hB]; rw [if_pos hB]
        simp only [hsh, Bool.false_eq_true, false_and, if_false]
        have := optimize_same cfg ha (r :: rs) ⟨s2.classes, s1.ready, s2.given, s1.mom, false, s2.given⟩
          ⟨s2.classes, s2.ready, s2.given, s2.mom, false, s2.given⟩ rfl
        revert this
        cases optimize cfg ⟨s2.classes, s1.ready, s2.given, s1.mom, false, s2.given⟩ (r :: rs) <;>
        cases optimize cfg ⟨s2.classes, s2.ready, s2.given, s2.mom, false, s2.given⟩ (r :: rs) <;>
        exact id
      · rw [if_neg hB]; rw [if_neg hB]

/-- C222 (violated): with initial prototypes given as a float array the training writes into the caller's array. -/
theorem C222_overwrites_violated (cfg : Cfg F) (hsh : cfg.shared = true) (hi : cfg.initial.isSome) (calls : List (Call F)) (hne : calls ≠ []) (s : S F)
    (h : fits cfg (blank cfg) calls = .ok s) : s.given = s.ps := by
  have key : ∀ (calls : List (Call F)) (s s' : S F), calls ≠ [] → fits cfg s calls = .ok s' → s'.given = s'.ps := by
    intro calls
    induction calls with
    | nil => intro s s' hne; exact absurd rfl hne
    | cons a l ih =>
      intro s s' _ h
      rw [fits] at h
      cases h1 : partialFit cfg s a with
      | error e => rw [h1] at h; cases h
      | ok s1 =>
        rw [h1] at h
        cases l with
        | cons b l => exact ih s1 s' (by simp) h
        | nil =>
          cases h
          rw [partialFit] at h1
          split at h1
          · cases h1
          cases hrows : a.rows with
          | nil => simp only [hrows] at h1; cases h1
          | cons r rs =>
            simp only [hrows, bind, Except.bind] at h1
            cases h2 : setClasses a s with
            | error e => rw [h2] at h1; cases h1
            | ok s2 =>
              rw [h2] at h1
              simp only [] at h1
              cases h3 : setPrototypes cfg a r.1.length s2 with
              | error e => rw [h3] at h1; cases h1
              | ok s3 =>
                rw [h3] at h1
                simp only [] at h1
                cases h4 : optimize cfg s3 (r :: rs) with
                | error e => rw [h4] at h1; cases h1
                | ok s4 =>
                  rw [h4] at h1
                  simp only [hsh, hi, and_self, if_true, Except.ok.injEq] at h1
                  subst h1
                  rfl
  exact key calls _ s hne h

/-! ### Errors -/

/-- **C223**, partial: a label that is not one of the classes, after the first batch, raises `ValueError`; -/
theorem C223_unknown_partial (cfg : Cfg F) (s : S F) (hf : s.fresh = false) (a : Call F) (y : Int) (hy : y ∈ a.rows.map Prod.snd) (hc : y ∉ s.classes) :
    partialFit cfg s a = .error .valueError := by
  rw [partialFit, if_pos ⟨by rw [hf]; simp, fun h => hc (h y hy)⟩]

/-- **C223**, partial: the classes accepted are 0, ..., k-1, each once, in some order; all others raise `ValueError`. -/
theorem C223_labels_partial (cfg : Cfg F) (a : Call F) :
    if (declared a).Perm ((List.range (declared a).length).map fun i : Nat => (i : Int)) then ∃ s, setClasses a (blank cfg) = .ok s ∧ s.classes = declared a
    else partialFit cfg (blank cfg) a = .error .valueError := by
  have hset : setClasses a (blank cfg) = if (List.range (declared a).length).all (fun i => (declared a).contains (i : Int)) then
      .ok { blank cfg with classes := declared a, ready := List.replicate (declared a).length false } else .error .valueError := by
    rw [setClasses, if_pos (show (blank cfg).fresh = true from rfl)]
    rfl
  split
  · rename_i hp
    rw [hset, if_pos]
    · exact ⟨_, rfl, rfl⟩
    · rw [List.all_eq_true]
      intro i hi
      rw [List.contains_iff_mem]
      exact hp.mem_iff.2 (List.mem_map_of_mem hi)
  · rename_i hp
    have hno : ¬ ((List.range (declared a).length).all (fun i => (declared a).contains (i : Int)) = true) := by
      intro hall
      apply hp
      rw [List.all_eq_true] at hall
      have hnd : ((List.range (declared a).length).map fun i : Nat => (i : Int)).Nodup :=
        List.nodup_range.map (fun i j h => by simpa using h)
      have hsub : ((List.range (declared a).length).map fun i : Nat => (i : Int)) ⊆ declared a := by
        intro z hz
        obtain ⟨i, hi, rfl⟩ := List.mem_map.1 hz
        have := hall i hi
        rwa [List.contains_iff_mem] at this
      exact ((hnd.subperm hsub).perm_of_length_le (by simp)).symm
    rw [if_neg hno] at hset
    rw [partialFit, if_neg (by simp [blank])]
    cases a.rows with
    | nil => rfl
    | cons r rs => simp only [bind, Except.bind, hset]

/-- **C223**, partial: parameters out of range, other than `sigma = 0`, raise `ValueError`, all others are accepted. -/
theorem C223_parameters_partial (sigma ppc gamma : F) (known : Bool) (hs : sigma ≠ 0) :
    construct sigma ppc gamma known =
      if 0 < sigma ∧ 0 < ppc ∧ 0 ≤ gamma ∧ gamma < 1 ∧ known = true then .ok (1 / sigma) else .error .valueError := by
  unfold construct
  rw [if_neg hs]
  by_cases h1 : sigma ≤ 0
  · rw [if_pos h1, if_neg (fun h => absurd h.1 (not_lt.2 h1))]
  rw [if_neg h1]
  by_cases h2 : ppc ≤ 0
  · rw [if_pos h2, if_neg (fun h => absurd h.2.1 (not_lt.2 h2))]
  rw [if_neg h2]
  by_cases h3 : gamma ≥ 1 ∨ gamma < 0
  · rw [if_pos h3, if_neg]
    rintro ⟨_, _, h4, h5, _⟩
    rcases h3 with h3 | h3
    · exact absurd h5 (not_lt.2 h3)
    · exact absurd h4 (not_le.2 h3)
  rw [if_neg h3]
  rw [not_or] at h3
  cases known with
  | false => simp
  | true =>
    rw [if_neg (by simp), if_pos ⟨not_le.1 h1, not_le.1 h2, not_lt.1 h3.2, not_le.1 h3.1, rfl⟩]

/-- C223 (violated): `sigma = 0` raises `ZeroDivisionError`: the learning rate is computed before the check. -/
theorem C223_zero_violated (ppc gamma : F) (known : Bool) : construct 0 ppc gamma known = .error .zeroDivision := by
  rw [construct, if_pos rfl]

/-! ### Examples -/

/-! ### The initial prototypes (C233) -/

theorem initClass_start (cfg : Cfg F) (a : Call F) (nf : Nat) (s : S F) (idx : Nat) (h : Inv cfg s) (i : Nat) (c : Int)
    (hc : s.classes[i]? = some c) (r : Nat) (hr : r < cfg.ppc) :
    (initClass cfg a nf s idx).ps[i * cfg.ppc + r]? =
      (if i = idx ∧ s.ready.getD i false = false ∧ c ∈ a.rows.map Prod.snd then some (seedProto cfg a nf i r c)
        else s.ps[i * cfg.ppc + r]?) ∧
    ((initClass cfg a nf s idx).ready.getD i false = (s.ready.getD i false || decide (i = idx ∧ c ∈ a.rows.map Prod.snd))) := by
  have hi := (List.getElem?_eq_some_iff.1 hc).1
  have hlt : i * cfg.ppc + r < s.ps.length := by
    rw [h.ps]
    calc i * cfg.ppc + r < i * cfg.ppc + cfg.ppc := by omega
      _ = (i + 1) * cfg.ppc := by rw [Nat.succ_mul]
      _ ≤ _ := Nat.mul_le_mul_right _ (by omega)
  have hrl : i < s.ready.length := by rw [h.ready]; exact hi
  unfold initClass
  cases hd : s.classes[idx]? with
  | none =>
    have hne : i ≠ idx := by rintro rfl; rw [hc] at hd; cases hd
    simp [hne]
  | some d =>
    simp only []
    by_cases hcond : s.ready.getD idx false = false ∧ d ∈ a.rows.map Prod.snd
    · rw [if_pos hcond]
      simp only []
      rw [setRange_get]
      by_cases hii : i = idx
      · subst hii
        rw [hc] at hd
        cases hd
        rw [if_pos ⟨by omega, by omega, hlt⟩, if_pos ⟨rfl, hcond⟩]
        refine ⟨by congr 2; omega, ?_⟩
        rw [List.getD_eq_getElem?_getD, List.getElem?_set_self hrl]
        have := hcond.2
        simp [this]
      · rw [if_neg, if_neg (fun hx => hii hx.1)]
        · refine ⟨rfl, ?_⟩
          rw [List.getD_eq_getElem?_getD, List.getElem?_set_ne (Ne.symm hii), ← List.getD_eq_getElem?_getD]
          simp [hii]
        · rintro ⟨g1, g2, _⟩
          exact hii (block_index cfg.ppc i idx r (i * cfg.ppc + r - idx * cfg.ppc) (by omega) hr (by omega))
    · rw [if_neg hcond]
      by_cases hii : i = idx
      · subst hii
        rw [hc] at hd
        cases hd
        rw [if_neg (fun hx => hcond hx.2)]
        refine ⟨rfl, ?_⟩
        by_cases hin : c ∈ a.rows.map Prod.snd
        · have : s.ready.getD i false = true := by
            by_contra hx
            exact hcond ⟨by simpa using hx, hin⟩
          rw [this]
          rfl
        · have : decide (i = i ∧ c ∈ a.rows.map Prod.snd) = false := by simpa using hin
          rw [this, Bool.or_false]
      · rw [if_neg (fun hx => hii hx.1)]
        simp [hii]

theorem initAll_start (cfg : Cfg F) (a : Call F) (nf : Nat) (l : List Nat) (s : S F) (h : Inv cfg s) (i : Nat) (c : Int)
    (hc : s.classes[i]? = some c) (r : Nat) (hr : r < cfg.ppc) :
    (l.foldl (initClass cfg a nf) s).ps[i * cfg.ppc + r]? =
      (if i ∈ l ∧ s.ready.getD i false = false ∧ c ∈ a.rows.map Prod.snd then some (seedProto cfg a nf i r c)
        else s.ps[i * cfg.ppc + r]?) := by
  induction l generalizing s with
  | nil => simp
  | cons j l ih =>
    obtain ⟨h1, h2, _, _, _⟩ := initClass_inv cfg a nf s j h
    obtain ⟨e1, e2⟩ := initClass_start cfg a nf s j h i c hc r hr
    rw [List.foldl_cons, ih _ h1 (by rw [h2]; exact hc), e1, e2]
    by_cases hin : c ∈ a.rows.map Prod.snd
    · by_cases hrd : s.ready.getD i false = false
      · by_cases hij : i = j
        · simp only [hij, hin, List.mem_cons, true_or, true_and, and_true, decide_true, Bool.or_true, Bool.true_eq_false, and_false,
            if_false]
        · have e : decide (i = j ∧ c ∈ a.rows.map Prod.snd) = false := by simp [hij]
          rw [e, Bool.or_false, if_neg (fun hx : i = j ∧ _ => hij hx.1)]
          simp only [List.mem_cons, hij, false_or]
      · have hrd' : s.ready.getD i false = true := by simpa using hrd
        rw [hrd', Bool.true_or, if_neg (by simp), if_neg (by simp), if_neg (by simp)]
    · rw [if_neg (fun hx => hin hx.2.2), if_neg (fun hx => hin hx.2.2), if_neg (fun hx => hin hx.2.2)]

/-- The mean of feature `f` over the rows of class `c`. -/
def MeanOf (rows : List (List F × Int)) (c : Int) (f : Nat) : F :=
  let l := rows.filter fun r => r.2 == c
  (l.map fun r => r.1.getD f 0).sum / (l.length : F)

/-- **C233**: when no initial prototypes are given, a call of `partial_fit` trains from the following prototypes: a class that occurs for the
first time gets `ppc` prototypes with its label, each the mean of the rows of that class in the batch (one
prototype) or within 1 of it in every feature (several); those of a class that occurred before are where they were. -/
theorem C233_start (cfg : Cfg F) (hcfg : cfg.initial = none) (s s' : S F) (hs : s.fresh = true ∨ Inv cfg s) (a : Call F)
    (hn : ∀ i r f, 0 ≤ a.noise i r f ∧ a.noise i r f < 1) (h : partialFit cfg s a = .ok s') :
    ∃ s0, optimize cfg s0 a.rows = .ok s' ∧
      ∀ (i : Nat) (c : Int), s'.classes[i]? = some c → ∀ r < cfg.ppc,
        ((s.fresh = true ∨ s.ready.getD i false = false) → c ∈ a.rows.map Prod.snd →
          ∃ w, s0.ps[i * cfg.ppc + r]? = some (w, c) ∧ w.length = (a.rows.headD ([], 0)).1.length ∧
            ∀ f < w.length, (cfg.ppc = 1 → w.getD f 0 = MeanOf a.rows c f) ∧
              -1 ≤ w.getD f 0 - MeanOf a.rows c f ∧ w.getD f 0 - MeanOf a.rows c f ≤ 1) ∧
        (s.fresh = false → (s.ready.getD i false = true ∨ c ∉ a.rows.map Prod.snd) → s0.ps[i * cfg.ppc + r]? = s.ps[i * cfg.ppc + r]?) := by
  rw [partialFit] at h
  split at h
  · cases h
  cases hrows : a.rows with
  | nil => simp only [hrows] at h; cases h
  | cons r rs =>
    simp only [hrows] at h
    rw [show (List.headD (r :: rs) (([] : List F), (0 : Int))).1.length = r.1.length from rfl]
    rw [← hrows] at h ⊢
    simp only [bind, Except.bind] at h
    cases h1 : setClasses a s with
    | error e => rw [h1] at h; cases h
    | ok s1 =>
      rw [h1] at h
      simp only [setPrototypes, hcfg] at h
      have hb : Inv cfg (if s1.fresh = true then { s1 with ps := (List.range (s1.classes.length * cfg.ppc)).map a.memory } else s1) ∧
          (s.fresh = false → s1 = s) ∧ (s.fresh = true → ∀ i, s1.ready.getD i false = false) ∧ s1.fresh = s.fresh := by
        obtain ⟨c1, c2, c3, c4⟩ := setClasses_spec a s s1 h1
        by_cases hf : s.fresh = true
        · obtain ⟨c5, c6⟩ := c4 hf
          refine ⟨?_, c3, ?_, c2⟩
          · rw [if_pos (c2.trans hf)]
            refine ⟨by simp, by simp only [c6, c5, List.length_replicate], fun i c _ hr => ?_⟩
            simp only [c6, List.getElem?_replicate] at hr
            split at hr
            · cases hr
            · cases hr
          · intro _ i
            rw [c6, List.getD_eq_getElem?_getD, List.getElem?_replicate]
            split <;> rfl
        · have := c3 (by simpa using hf)
          subst this
          rw [if_neg hf]
          rcases hs with hs | hs
          · exact absurd hs hf
          · exact ⟨hs, fun _ => rfl, fun hc => absurd hc hf, rfl⟩
      obtain ⟨hb1, hb2, hb3, hb4⟩ := hb
      have hrd : (if s1.fresh = true then { s1 with ps := (List.range (s1.classes.length * cfg.ppc)).map a.memory } else s1).ready = s1.ready := by
        split <;> rfl
      have hps : s1.fresh = false → (if s1.fresh = true then { s1 with ps := (List.range (s1.classes.length * cfg.ppc)).map a.memory } else s1).ps = s1.ps := by
        intro hx; rw [hx]; rfl
      generalize hs2 : (if s1.fresh = true then { s1 with ps := (List.range (s1.classes.length * cfg.ppc)).map a.memory } else s1) = s2 at h hb1 hrd hps
      obtain ⟨g1, g2, g3, g4, g5⟩ := initAll_inv cfg a r.1.length (List.range s2.classes.length) s2 hb1
      cases h3 : optimize cfg { (List.range s2.classes.length).foldl (initClass cfg a r.1.length) s2 with fresh := false } a.rows with
      | error e => rw [h3] at h; cases h
      | ok s3 =>
        rw [h3] at h
        simp only [Option.isSome_none, Bool.false_eq_true, and_false, if_false, Except.ok.injEq] at h
        subst h
        obtain ⟨k1, k2, k3, k4, k5⟩ := optimize_alike cfg _ _ _ h3
        simp only at k2
        refine ⟨_, h3, ?_⟩
        intro i c hc q hq
        rw [k2, g2] at hc
        have hst := initAll_start cfg a r.1.length (List.range s2.classes.length) s2 hb1 i c hc q hq
        have hil : i ∈ List.range s2.classes.length := List.mem_range.2 (List.getElem?_eq_some_iff.1 hc).1
        rw [hrd] at hst
        constructor
        · intro hnew hin
          have hnr : s1.ready.getD i false = false := by
            by_cases hf : s.fresh = true
            · exact hb3 hf i
            · rcases hnew with hx | hx
              · exact absurd hx hf
              · rw [hb2 (by simpa using hf)]; exact hx
          rw [if_pos ⟨hil, hnr, hin⟩] at hst
          have hm : ∀ f < r.1.length, (classMean r.1.length a.rows c).getD f 0 = MeanOf a.rows c f := by
            intro f hf
            rw [classMean, List.getD_eq_getElem?_getD, List.getElem?_map, List.getElem?_range hf]
            simp [MeanOf, Function.comp_def]
          have hml : (classMean r.1.length a.rows c).length = r.1.length := by simp [classMean]
          refine ⟨_, hst, ?_, ?_⟩
          · by_cases hp : cfg.ppc = 1
            · rw [if_pos hp]; exact hml
            · rw [if_neg hp, List.length_mapIdx, hml]
          · intro f hf
            by_cases hp : cfg.ppc = 1
            · rw [if_pos hp] at hf ⊢
              rw [hml] at hf
              rw [hm f hf]
              exact ⟨fun _ => rfl, by rw [sub_self]; norm_num, by rw [sub_self]; norm_num⟩
            · rw [if_neg hp] at hf ⊢
              rw [List.length_mapIdx, hml] at hf
              rw [getD_mapIdx _ _ _ (by rw [hml]; exact hf), hm f hf]
              have := hn i q f
              exact ⟨fun hx => absurd hx hp, by linarith, by linarith⟩
        · intro hf hold
          have hs1 := hb2 hf
          rw [if_neg] at hst
          · have : s1.fresh = false := hb4.trans hf
            rw [hst, hps this, hs1]
          · rintro ⟨_, x1, x2⟩
            rw [hs1] at x1
            rcases hold with hx | hx
            · rw [hx] at x1; cases x1
            · exact hx x2

/-- Over the rationals, with `exp` always 1 (it has what the theorems need: positive, sums to products) and root 1. -/
def exCfg (ini : Option (List (Proto ℚ))) (shared ada : Bool) : Cfg ℚ :=
  ⟨1, 1, ada, 1/2, 1, fun _ => 1, fun _ => 1, ini, shared⟩

example (ini : Option (List (Proto ℚ))) (sh ada : Bool) : Fine (exCfg ini sh ada) :=
  ⟨by simp [exCfg], fun _ => by simp [exCfg], fun _ _ => by simp [exCfg], fun _ => by simp [exCfg]⟩

-- the real exponential and root
example (sigma gamma eps : ℝ) (h : 0 < sigma) (ppc : Nat) (ada sh : Bool) (ini : Option (List (Proto ℝ))) :
    Fine (⟨sigma, ppc, ada, gamma, eps, Real.exp, Real.sqrt, ini, sh⟩ : Cfg ℝ) :=
  ⟨h, Real.exp_pos, Real.exp_add, Real.sqrt_nonneg⟩

/-- Memory full of sevens, no noise. -/
def exCall (rows : List (List ℚ × Int)) (classes : List Int) : Call ℚ := ⟨rows, classes, fun _ => ([7], 7), fun _ _ _ => 0⟩

/-- The prototypes after some calls, and the answer to a row. -/
def seen (cfg : Cfg ℚ) (calls : List (Call ℚ)) (x : List ℚ) : Option (List (Proto ℚ) × Int) :=
  match fits cfg (blank cfg) calls with
  | .error _ => none
  | .ok s => match predict cfg s x with
    | .error _ => none
    | .ok c => some (s.ps, c)

-- prototypes start at the class means; the row 6 of class 0 is nearer to class 1: both prototypes move
example : seen (exCfg none false false) [exCall [([0], 0), ([2], 0), ([8], 1)] []] [3] = some ([([1], 0), ([8], 1)], 0) ∧
    seen (exCfg none false false) [exCall [([0], 0), ([2], 0), ([8], 1)] [], exCall [([6], 0)] []] [3] = some ([([7/2], 0), ([9], 1)], 0) := by
  decide +kernel

-- the same with adadelta
example : (seen (exCfg none false true) [exCall [([0], 0), ([2], 0), ([8], 1)] [], exCall [([6], 0)] []] [3]).isSome = true := by decide +kernel

-- a declared class that has not occurred
example : seen (exCfg none false false) [exCall [([0], 0)] [0, 1]] [6] = some ([([0], 0), ([7], 7)], 7) := by decide +kernel

-- initial prototypes as a list: two calls give the same as the second alone; as an array they do not
example : let ini : Option (List (Proto ℚ)) := some [([1], 0), ([8], 1)]
    seen (exCfg ini false false) [exCall [([6], 0), ([1], 1)] [0, 1], exCall [([6], 0)] []] [3] =
      seen (exCfg ini false false) [exCall [([1], 0)] [0, 1], exCall [([6], 0)] []] [3] ∧
    seen (exCfg ini true false) [exCall [([6], 0), ([1], 1)] [0, 1], exCall [([6], 0)] []] [3] ≠
      seen (exCfg ini true false) [exCall [([1], 0)] [0, 1], exCall [([6], 0)] []] [3] := by
  decide +kernel

-- labels that are not 0, 1, ...
example : (partialFit (exCfg none false false) (blank (exCfg none false false)) (exCall [([0], 1), ([1], 2)] [])).toOption.isNone = true ∧
    (declared (exCall [([0], 1), ([1], 2)] [])) = [1, 2] ∧ (declared (exCall [([0], 1), ([1], 0)] [])) = [0, 1] := by decide +kernel

/-- Two prototypes of a class with rows 0 and 2: the mean is 1, the random numbers 0 and 1/2. -/
example : let cfg : Cfg ℚ := { exCfg none false false with ppc := 2 }
    let a : Call ℚ := ⟨[([0], 0), ([2], 0)], [], fun _ => ([7], 7), fun _ r _ => if r = 0 then 0 else 1 / 2⟩
    (partialFit cfg (blank cfg) a).toOption.map (·.ps) = some [([0], 0), ([1], 0)] := by decide +kernel

end Verif.Prototype
