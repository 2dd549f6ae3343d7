import Verif.Meta.Patches
import Mathlib.Data.List.GetD
import Mathlib.Algebra.Order.BigOperators.Group.List
import Mathlib.Tactic.IntervalCases
import Mathlib.Algebra.Order.Field.Basic

/-!
Theorems about `Meta/Patches.lean`; C136, C137.
-/

namespace Verif.Meta.Patches

/-! ### Combinations -/

theorem sorted_bound (l : List Nat) (a n : Nat) (hl : l.Pairwise (· < ·)) (hb : ∀ i ∈ l, a ≤ i ∧ i < n) :
    l.length = 0 ∨ a + l.length ≤ n := by
  induction l generalizing a with
  | nil => exact .inl rfl
  | cons x l ih =>
    right
    rw [List.pairwise_cons] at hl
    have hx := hb x (by simp)
    rcases ih (x + 1) hl.2 (fun i hi => ⟨hl.1 i hi, (hb i (by simp [hi])).2⟩) with h | h
    · rw [List.length_cons, h]; omega
    · rw [List.length_cons]; omega

theorem mem_combsRec (n k off : Nat) (c d : List Nat) : d ∈ combsRec n k off c ↔
    ∃ e, d = c ++ e ∧ e.length = k ∧ e.Pairwise (· < ·) ∧ ∀ i ∈ e, off ≤ i ∧ i < n := by
  induction k generalizing off c with
  | zero =>
    simp only [combsRec, List.mem_singleton]
    constructor
    · rintro rfl; exact ⟨[], by simp⟩
    · rintro ⟨e, rfl, h, -⟩
      rw [List.length_eq_zero_iff] at h
      simp [h]
  | succ k ih =>
    simp only [combsRec, List.mem_flatMap, List.mem_range'_1, ih]
    constructor
    · rintro ⟨i, hi, e, rfl, h1, h2, h3⟩
      refine ⟨i :: e, by simp, by simp [h1], List.pairwise_cons.2 ⟨fun j hj => (h3 j hj).1, h2⟩, ?_⟩
      intro j hj
      rcases List.mem_cons.1 hj with rfl | hj
      · omega
      · have := h3 j hj; omega
    · rintro ⟨e, rfl, h1, h2, h3⟩
      cases e with
      | nil => cases h1
      | cons i e =>
        have hb := sorted_bound (i :: e) i n h2 (by
          intro j hj
          refine ⟨?_, (h3 j hj).2⟩
          rcases List.mem_cons.1 hj with rfl | hj
          · exact le_refl _
          · exact (List.pairwise_cons.1 h2).1 j hj |>.le)
        rw [List.pairwise_cons] at h2
        have hi := h3 i (by simp)
        simp only [List.length_cons] at hb h1
        refine ⟨i, by omega, e, by simp, by omega, h2.2, fun j hj => ⟨h2.1 j hj, (h3 j (by simp [hj])).2⟩⟩

theorem sum_choose (k off m : Nat) :
    ((List.range' off m).map fun i => (off + m + k - (i + 1)).choose k).sum = (m + k).choose (k + 1) := by
  induction m generalizing off with
  | zero => simp
  | succ m ih =>
    rw [List.range'_succ, List.map_cons, List.sum_cons]
    have h := ih (off + 1)
    rw [show off + 1 + m + k = off + (m + 1) + k by omega] at h
    rw [h, show off + (m + 1) + k - (off + 1) = m + k by omega, show m + 1 + k = (m + k) + 1 by omega,
      Nat.choose_succ_succ]

theorem length_combsRec (n k off : Nat) (c : List Nat) : (combsRec n k off c).length = (n - off).choose k := by
  induction k generalizing off c with
  | zero => simp [combsRec]
  | succ k ih =>
    simp only [combsRec, List.length_flatMap, ih]
    by_cases h : off ≤ n - k
    · by_cases hk : k ≤ n
      · have := sum_choose k off (n - k - off)
        rw [show off + (n - k - off) + k = n by omega, show n - k - off + k = n - off by omega] at this
        exact this
      · rw [show n - k - off = 0 by omega, Nat.choose_eq_zero_of_lt (by omega)]
        rfl
    · rw [show n - k - off = 0 by omega, Nat.choose_eq_zero_of_lt (by omega)]
      rfl

theorem nodup_combsRec (n k off : Nat) (c : List Nat) : (combsRec n k off c).Nodup := by
  induction k generalizing off c with
  | zero => simp [combsRec]
  | succ k ih =>
    simp only [combsRec]
    rw [List.nodup_flatMap]
    refine ⟨fun i _ => ih _ _, ?_⟩
    have hp : (List.range' off (n - k - off)).Pairwise (· ≠ ·) := List.nodup_range'
    refine hp.imp fun {i j} hij => ?_
    intro d hd hd'
    rw [mem_combsRec] at hd hd'
    obtain ⟨e, rfl, -⟩ := hd
    obtain ⟨e', he', -⟩ := hd'
    simp at he'
    exact hij he'.1

theorem combsRec_prefix (n k off j : Nat) (c : List Nat) (hj : j ≤ k) (hk : off + k ≤ n) :
    ∃ rest, combsRec n k off c = combsRec n (k - j) (off + j) (c ++ List.range' off j) ++ rest := by
  induction j generalizing k off c with
  | zero => exact ⟨[], by simp⟩
  | succ j ih =>
    cases k with
    | zero => omega
    | succ k =>
      obtain ⟨rest, h⟩ := ih k (off + 1) (c ++ [off]) (by omega) (by omega)
      refine ⟨rest ++ (List.range' (off + 1) (n - k - off - 1)).flatMap fun i => combsRec n k (i + 1) (c ++ [i]), ?_⟩
      conv_lhs => rw [combsRec]
      rw [show n - k - off = (n - k - off - 1) + 1 by omega, List.range'_succ, List.flatMap_cons, h,
        List.append_assoc, show k + 1 - (j + 1) = k - j by omega, show off + 1 + j = off + (j + 1) by omega,
        List.append_assoc, List.range'_succ]
      simp

/-! ### From the parameters to the members -/

/-- The shuffled indexes of the members. -/
def Shuffle (sh : List Nat) (N : Nat) : Prop := sh.Perm (List.range N)

/-- A draw of `choice(range(n), k, replace=False)`. -/
def Drawn (f : List Nat) (k : Int) (n : Nat) : Prop := (f.length : Int) = k ∧ f.Nodup ∧ ∀ i ∈ f, i < n

theorem mapM_ok {α β : Type} (f : α → Except PyErr β) (l : List α) (r : List β) (h : l.mapM f = .ok r) :
    List.Forall₂ (fun a b => f a = .ok b) l r := by
  induction l generalizing r with
  | nil =>
    simp only [List.mapM_nil, pure, Except.pure, Except.ok.injEq] at h
    subst h; exact .nil
  | cons a l ih =>
    rw [List.mapM_cons] at h
    cases ha : f a with
    | error e => rw [ha] at h; cases h
    | ok b =>
      rw [ha] at h
      cases hl : l.mapM f with
      | error e => rw [hl] at h; cases h
      | ok r' =>
        rw [hl] at h
        simp only [bind, Except.bind, pure, Except.pure, Except.ok.injEq] at h
        subst h
        exact .cons ha (ih r' hl)

theorem mapM_total {α β : Type} (f : α → Except PyErr β) (l : List α) (h : ∀ a ∈ l, ∃ b, f a = .ok b) :
    ∃ r, l.mapM f = .ok r := by
  induction l with
  | nil => exact ⟨[], rfl⟩
  | cons a l ih =>
    obtain ⟨b, hb⟩ := h a (by simp)
    obtain ⟨r, hr⟩ := ih fun a ha => h a (by simp [ha])
    exact ⟨b :: r, by rw [List.mapM_cons, hb, hr]; rfl⟩

theorem members_get (sh : List Nat) (N : Nat) (subs : List (List Nat)) (l : List (Option (List Nat)))
    (h : members sh N (some subs) = .ok l) : l.length = N ∧
      ∀ (i : Nat) (o : Option (List Nat)), l[i]? = some o → ∃ j f, sh[i]? = some j ∧ subs[j]? = some f ∧ o = some f := by
  have hf := mapM_ok _ _ _ h
  refine ⟨by simpa using hf.length_eq.symm, fun i o hi => ?_⟩
  obtain ⟨hil, rfl⟩ := List.getElem?_eq_some_iff.1 hi
  have hN : i < N := by simpa [← hf.length_eq] using hil
  have := hf.get (i := i) (by simpa using hN) hil
  simp only [List.get_eq_getElem, List.getElem_range] at this
  cases hs : sh[i]? with
  | none => rw [hs] at this; cases this
  | some j =>
    rw [hs] at this
    cases hj : subs[j]? with
    | none => simp only [hj] at this; cases this
    | some f =>
      simp only [hj, Except.ok.injEq] at this
      exact ⟨j, f, rfl, hj, this.symm⟩

theorem padLoop_some (N fuel : Nat) (subs : List (List Nat)) (i : Nat) (r : List (List Nat))
    (h : padLoop N fuel subs i = some r) : r = subs ∧ N ≤ subs.length := by
  induction fuel generalizing i with
  | zero => cases h
  | succ fuel ih =>
    rw [padLoop] at h
    by_cases hl : subs.length < N
    · rw [if_pos hl] at h; exact ih _ h
    · rw [if_neg hl, Option.some.injEq] at h
      exact ⟨h.symm, by omega⟩

theorem padLoop_none (N fuel : Nat) (subs : List (List Nat)) (i : Nat) (h : subs.length < N) :
    padLoop N fuel subs i = none := by
  induction fuel generalizing i with
  | zero => rfl
  | succ fuel ih => rw [padLoop, if_pos h]; exact ih _

/-- Everything a finished construction tells. -/
theorem start_ok (fuel : Nat) (choice : Nat → List Nat) (meth : Method) (k : Int) (n N : Nat) (m : Method)
    (subs : Option (List (List Nat))) (h : start fuel choice meth k n N = some (.ok (m, subs))) :
    (subs = none ∧ m = .resampling ∧ (meth = .resampling ∨ k = 0 ∨ n ≤ k)) ∨
    (meth ≠ .resampling ∧ m = meth ∧ 0 < k ∧ k < n ∧ ∃ k' : Nat, (k' : Int) = (if k = 1 ∧ n > 2 then 2 else k) ∧
      ((n ≤ 20 ∨ k < 2) ∧ subs = some (allCombs k' n) ∧ N ≤ n.choose k' ∨
        (20 < n ∧ 2 ≤ k) ∧ subs = some ((List.range N).map choice))) := by
  unfold start at h
  by_cases hm : meth = .resampling
  · rw [if_pos hm] at h
    simp only [Option.some.injEq, Except.ok.injEq, Prod.mk.injEq] at h
    exact .inl ⟨h.2.symm, by rw [← h.1, hm], .inl hm⟩
  · rw [if_neg hm] at h
    by_cases hk : k ≠ 0 ∧ k < n
    · rw [if_pos hk] at h
      right
      by_cases hn : n ≤ 20 ∨ k < 2
      · rw [if_pos hn] at h
        simp only at h
        by_cases hneg : (if k = 1 ∧ n > 2 then (2 : Int) else k) < 0
        · rw [if_pos hneg] at h; simp at h
        · rw [if_neg hneg] at h
          have hpos : 0 < k := by
            by_contra hc
            rw [if_neg (by omega)] at hneg
            omega
          rw [Option.map_eq_some_iff] at h
          obtain ⟨r, hr, hr2⟩ := h
          simp only [Except.ok.injEq, Prod.mk.injEq] at hr2
          obtain ⟨h1, h2⟩ := padLoop_some _ _ _ _ _ hr
          refine ⟨hm, hr2.1.symm, hpos, hk.2, (if k = 1 ∧ n > 2 then (2 : Int) else k).toNat, ?_, .inl ⟨hn, ?_, ?_⟩⟩
          · rw [Int.toNat_of_nonneg]; omega
          · rw [← hr2.2, h1]
          · rw [allCombs, length_combsRec, Nat.sub_zero] at h2
            exact h2
      · rw [if_neg hn] at h
        simp only [Option.some.injEq, Except.ok.injEq, Prod.mk.injEq] at h
        have h2 : ¬ (k = 1 ∧ n > 2) := by omega
        exact ⟨hm, h.1.symm, by omega, hk.2, k.toNat, by rw [if_neg h2, Int.toNat_of_nonneg (by omega)],
          .inr ⟨by omega, h.2.symm⟩⟩
    · rw [if_neg hk] at h
      simp only [Option.some.injEq, Except.ok.injEq, Prod.mk.injEq] at h
      exact .inl ⟨h.2.symm, h.1.symm, .inr (by omega)⟩

theorem assign_ok (fuel : Nat) (choice : Nat → List Nat) (sh : List Nat) (meth : Method) (mode : Mode) (size : Int)
    (n N : Nat) (m : Method) (l : List (Option (List Nat)))
    (h : assign fuel choice sh meth mode size n N = some (.ok (m, l))) :
    ∃ subs, start fuel choice meth (sizeOf mode size n) n N = some (.ok (m, subs)) ∧ members sh N subs = .ok l := by
  unfold assign at h
  rw [Option.map_eq_some_iff] at h
  obtain ⟨r, hr, h⟩ := h
  cases r with
  | error e => cases h
  | ok ms =>
    obtain ⟨m', subs⟩ := ms
    simp only at h
    cases hm : members sh N subs with
    | error e => rw [hm] at h; cases h
    | ok l' =>
      rw [hm] at h
      simp only [Except.ok.injEq, Prod.mk.injEq] at h
      obtain ⟨rfl, rfl⟩ := h
      exact ⟨subs, hr, hm⟩

theorem mem_allCombs (k n : Nat) (f : List Nat) :
    f ∈ allCombs k n ↔ f.length = k ∧ f.Pairwise (· < ·) ∧ ∀ i ∈ f, i < n := by
  rw [allCombs, mem_combsRec]
  simp

/-- What `assign` gives each member. -/
theorem assign_member (fuel : Nat) (choice : Nat → List Nat) (sh : List Nat) (meth : Method) (mode : Mode) (size : Int)
    (n N : Nat) (m : Method) (l : List (Option (List Nat)))
    (hch : ∀ j, Drawn (choice j) (sizeOf mode size n) n)
    (h : assign fuel choice sh meth mode size n N = some (.ok (m, l))) :
    l.length = N ∧
    ((m = .resampling ∧ (meth = .resampling ∨ sizeOf mode size n = 0 ∨ n ≤ sizeOf mode size n) ∧
        l = List.replicate N none) ∨
      (meth ≠ .resampling ∧ m = meth ∧ 0 < sizeOf mode size n ∧ sizeOf mode size n < n ∧
        ∀ o ∈ l, ∃ f, o = some f ∧ Drawn f (if sizeOf mode size n = 1 ∧ n > 2 then 2 else sizeOf mode size n) n)) := by
  obtain ⟨subs, hs, hm⟩ := assign_ok _ _ _ _ _ _ _ _ _ _ h
  rcases start_ok _ _ _ _ _ _ _ _ hs with ⟨rfl, h1, h2⟩ | ⟨h1, h2, h3, h4, k', h5, h6⟩
  · simp only [members, Except.ok.injEq] at hm
    subst hm
    exact ⟨by simp, .inl ⟨h1, h2, rfl⟩⟩
  · rcases h6 with ⟨-, rfl, -⟩ | ⟨hbig, rfl⟩
    · obtain ⟨hl, hg⟩ := members_get _ _ _ _ hm
      refine ⟨hl, .inr ⟨h1, h2, h3, h4, fun o ho => ?_⟩⟩
      obtain ⟨i, hi⟩ := List.mem_iff_getElem?.1 ho
      obtain ⟨j, f, -, hf, rfl⟩ := hg i o hi
      have := (mem_allCombs k' n f).1 (List.mem_of_getElem? hf)
      refine ⟨f, rfl, by rw [← h5, this.1], this.2.1.imp fun {a b} hab => by omega, this.2.2⟩
    · obtain ⟨hl, hg⟩ := members_get _ _ _ _ hm
      refine ⟨hl, .inr ⟨h1, h2, h3, h4, fun o ho => ?_⟩⟩
      obtain ⟨i, hi⟩ := List.mem_iff_getElem?.1 ho
      obtain ⟨j, f, -, hf, rfl⟩ := hg i o hi
      have := List.mem_of_getElem? hf
      rw [List.mem_map] at this
      obtain ⟨a, -, rfl⟩ := this
      refine ⟨_, rfl, ?_⟩
      rw [if_neg (by omega)]
      exact hch a

/-! ### C136 -/

/-- C136: members have distinct valid features, and for up to 20 features no two members
have the same subspace. -/
theorem C136_subspaces_partial (fuel : Nat) (choice : Nat → List Nat) (sh : List Nat) (meth : Method) (mode : Mode)
    (size : Int) (n N : Nat) (m : Method) (l : List (Option (List Nat)))
    (hch : ∀ j, Drawn (choice j) (sizeOf mode size n) n) (hsh : Shuffle sh N)
    (h : assign fuel choice sh meth mode size n N = some (.ok (m, l))) :
    l.length = N ∧ (∀ f, some f ∈ l → f.Nodup ∧ ∀ i ∈ f, i < n) ∧
    (n ≤ 20 → ∀ (i j : Nat) (f : List Nat), l[i]? = some (some f) → l[j]? = some (some f) → i = j) := by
  obtain ⟨hl, hm⟩ := assign_member _ _ _ _ _ _ _ _ _ _ hch h
  refine ⟨hl, fun f hf => ?_, fun hn i j f hi hj => ?_⟩
  · rcases hm with ⟨-, -, rfl⟩ | ⟨-, -, -, -, hm⟩
    · have := List.eq_of_mem_replicate hf; cases this
    · obtain ⟨f', hf', hd⟩ := hm _ hf
      cases hf'
      exact hd.2
  · obtain ⟨subs, hs, hmem⟩ := assign_ok _ _ _ _ _ _ _ _ _ _ h
    rcases start_ok _ _ _ _ _ _ _ _ hs with ⟨rfl, -⟩ | ⟨-, -, -, -, k', -, h6⟩
    · simp only [members, Except.ok.injEq] at hmem
      subst hmem
      have := List.eq_of_mem_replicate (List.mem_of_getElem? hi)
      cases this
    · rcases h6 with ⟨-, rfl, -⟩ | ⟨hbig, -⟩
      · obtain ⟨-, hg⟩ := members_get _ _ _ _ hmem
        obtain ⟨a, f1, ha, hf1, h1⟩ := hg _ _ hi
        obtain ⟨b, f2, hb, hf2, h2⟩ := hg _ _ hj
        cases h1
        cases h2
        obtain ⟨ha', hfa⟩ := List.getElem?_eq_some_iff.1 hf1
        obtain ⟨hb', hfb⟩ := List.getElem?_eq_some_iff.1 hf2
        have hab : a = b := ((nodup_combsRec n k' 0 []).getElem_inj_iff (hi := ha') (hj := hb')).1 (hfa.trans hfb.symm)
        subst hab
        have hnd : sh.Nodup := hsh.nodup_iff.2 List.nodup_range
        obtain ⟨hi', hia⟩ := List.getElem?_eq_some_iff.1 ha
        obtain ⟨hj', hja⟩ := List.getElem?_eq_some_iff.1 hb
        exact (hnd.getElem_inj_iff (hi := hi') (hj := hj')).1 (hia.trans hja.symm)
      · omega

/-- C136: the construction ends whenever there are as many subspaces as members, or more
than 20 features. -/
theorem C136_finishes_partial (choice : Nat → List Nat) (sh : List Nat) (meth : Method) (mode : Mode) (size : Int)
    (n N : Nat) (hsh : Shuffle sh N) (hk : 2 ≤ sizeOf mode size n)
    (hN : 20 < n ∨ N ≤ n.choose (sizeOf mode size n).toNat) :
    ∃ m l, assign 1 choice sh meth mode size n N = some (.ok (m, l)) := by
  have key : ∃ m subs, start 1 choice meth (sizeOf mode size n) n N = some (.ok (m, subs)) ∧
      ∀ s, subs = some s → N ≤ s.length := by
    unfold start
    by_cases hm : meth = .resampling
    · exact ⟨_, _, by rw [if_pos hm], fun s h => by cases h⟩
    · rw [if_neg hm]
      by_cases hkn : sizeOf mode size n ≠ 0 ∧ sizeOf mode size n < n
      · rw [if_pos hkn]
        by_cases hn : n ≤ 20 ∨ sizeOf mode size n < 2
        · rw [if_pos hn]
          simp only [if_neg (show ¬ (sizeOf mode size n = 1 ∧ n > 2) by omega),
            if_neg (show ¬ sizeOf mode size n < 0 by omega)]
          have hlen : N ≤ (allCombs (sizeOf mode size n).toNat n).length := by
            rw [allCombs, length_combsRec, Nat.sub_zero]
            rcases hN with h | h
            · omega
            · exact h
          refine ⟨meth, some (allCombs (sizeOf mode size n).toNat n), ?_, fun s h => ?_⟩
          · rw [padLoop, if_neg (by omega)]; rfl
          · cases h; exact hlen
        · rw [if_neg hn]
          exact ⟨_, _, rfl, fun s h => by cases h; simp⟩
      · rw [if_neg hkn]
        exact ⟨_, _, rfl, fun s h => by cases h⟩
  obtain ⟨m, subs, hs, hlen⟩ := key
  have hmem : ∃ l, members sh N subs = .ok l := by
    cases subs with
    | none => exact ⟨_, rfl⟩
    | some s =>
      apply mapM_total
      intro i hi
      have hi' : i < sh.length := by rw [hsh.length_eq]; simpa using hi
      have hj : sh[i] < N := by simpa using hsh.subset (List.getElem_mem hi')
      rw [List.getElem?_eq_getElem hi']
      have := hlen s rfl
      simp only [List.getElem?_eq_getElem (show sh[i] < s.length by omega)]
      exact ⟨_, rfl⟩
  obtain ⟨l, hl⟩ := hmem
  exact ⟨m, l, by simp [assign, hs, hl]⟩

/-- C136 fails: with up to 20 features and fewer subspaces than members, `partial_fit`
never returns. -/
theorem C136_never_returns_violated (fuel : Nat) (choice : Nat → List Nat) (sh : List Nat) (meth : Method) (mode : Mode)
    (size : Int) (n N : Nat) (hm : meth ≠ .resampling) (hn : n ≤ 20) (hk : 2 ≤ sizeOf mode size n)
    (hkn : sizeOf mode size n < n) (hN : n.choose (sizeOf mode size n).toNat < N) :
    assign fuel choice sh meth mode size n N = none := by
  unfold assign start
  rw [if_neg hm, if_pos ⟨by omega, hkn⟩, if_pos (.inl hn)]
  simp only [if_neg (show ¬ (sizeOf mode size n = 1 ∧ n > 2) by omega),
    if_neg (show ¬ sizeOf mode size n < 0 by omega)]
  rw [padLoop_none]
  · rfl
  · rw [allCombs, length_combsRec, Nat.sub_zero]; exact hN

/-- The default parameters (100 members, 60 percent, random patches) with 5 features. -/
example (fuel : Nat) (choice : Nat → List Nat) (sh : List Nat) :
    assign fuel choice sh .patches .percent 60 5 100 = none :=
  C136_never_returns_violated _ _ _ _ _ _ _ _ (by decide) (by decide) (by decide +kernel) (by decide +kernel)
    (by decide +kernel)

/-- C136 fails: with up to 20 features the subspaces are not drawn among all; whatever the
random draws, all members share the first `j` features as soon as there are enough
subspaces that contain these. -/
theorem C136_not_random_violated (fuel : Nat) (choice : Nat → List Nat) (sh : List Nat) (meth : Method) (mode : Mode)
    (size : Int) (n N j : Nat) (m : Method) (l : List (Option (List Nat))) (hsh : Shuffle sh N) (hn : n ≤ 20)
    (hj : (j : Int) ≤ sizeOf mode size n) (hk : 2 ≤ sizeOf mode size n)
    (hN : N ≤ (n - j).choose ((sizeOf mode size n).toNat - j))
    (h : assign fuel choice sh meth mode size n N = some (.ok (m, l))) :
    ∀ f, some f ∈ l → ∀ i, i < j → i ∈ f := by
  obtain ⟨subs, hs, hmem⟩ := assign_ok _ _ _ _ _ _ _ _ _ _ h
  intro f hf i hi
  rcases start_ok _ _ _ _ _ _ _ _ hs with ⟨rfl, -⟩ | ⟨-, -, -, hkn, k', hk', h6⟩
  · simp only [members, Except.ok.injEq] at hmem
    subst hmem
    have := List.eq_of_mem_replicate hf
    cases this
  · rcases h6 with ⟨-, rfl, -⟩ | ⟨hbig, -⟩
    · obtain ⟨-, hg⟩ := members_get _ _ _ _ hmem
      obtain ⟨p, hp⟩ := List.mem_iff_getElem?.1 hf
      obtain ⟨a, f1, ha, hf1, h1⟩ := hg _ _ hp
      cases h1
      rw [if_neg (by omega)] at hk'
      have hkk : (sizeOf mode size n).toNat = k' := by omega
      rw [hkk] at hN
      obtain ⟨rest, hr⟩ := combsRec_prefix n k' 0 j [] (by omega) (by omega)
      have haN : a < N := by simpa using hsh.subset (List.mem_of_getElem? ha)
      rw [allCombs, hr, List.getElem?_append_left (by rw [length_combsRec]; simp only [Nat.zero_add]; omega)] at hf1
      have := List.mem_of_getElem? hf1
      rw [mem_combsRec] at this
      obtain ⟨e, rfl, -⟩ := this
      simp [List.mem_range'_1, hi]
    · omega

/-- The example of the documentation: 3 members, 9 features; all members share the features
0 to 3. -/
example (fuel : Nat) (choice : Nat → List Nat) (sh : List Nat) (hsh : Shuffle sh 3) (m : Method)
    (l : List (Option (List Nat))) (h : assign fuel choice sh .patches .percent 60 9 3 = some (.ok (m, l))) :
    ∀ f, some f ∈ l → ∀ i, i < 4 → i ∈ f :=
  C136_not_random_violated _ _ _ _ _ _ _ _ 4 _ _ hsh (by decide) (by decide +kernel) (by decide +kernel)
    (by decide +kernel) h

example : (assign 1 (fun _ => []) [2, 0, 1] .patches .percent 60 9 3).map (fun r => r.toOption) =
    some (some (.patches, [some [0, 1, 2, 3, 6], some [0, 1, 2, 3, 4], some [0, 1, 2, 3, 5]])) := by
  decide +kernel

/-! ### C137 -/

/-- C137: sizes from 2 to `n - 1` are the sizes of all members' subspaces; 0 and sizes from
`n` on mean that every member sees all features. -/
theorem C137_size_partial (fuel : Nat) (choice : Nat → List Nat) (sh : List Nat) (meth : Method) (mode : Mode)
    (size : Int) (n N : Nat) (m : Method) (l : List (Option (List Nat))) (hm : meth ≠ .resampling)
    (hch : ∀ j, Drawn (choice j) (sizeOf mode size n) n)
    (h : assign fuel choice sh meth mode size n N = some (.ok (m, l))) :
    (2 ≤ sizeOf mode size n → sizeOf mode size n < n →
      m = meth ∧ ∀ o ∈ l, ∃ f, o = some f ∧ (f.length : Int) = sizeOf mode size n) ∧
    (sizeOf mode size n = 0 ∨ (n : Int) ≤ sizeOf mode size n → l = List.replicate N none) := by
  obtain ⟨hl, hmm⟩ := assign_member _ _ _ _ _ _ _ _ _ _ hch h
  refine ⟨fun h2 hn => ?_, fun h0 => ?_⟩
  · rcases hmm with ⟨-, h1, -⟩ | ⟨-, h1, -, -, hf⟩
    · rcases h1 with h1 | h1 | h1
      · exact absurd h1 hm
      · omega
      · omega
    · refine ⟨h1, fun o ho => ?_⟩
      obtain ⟨f, rfl, hd⟩ := hf o ho
      rw [if_neg (by omega)] at hd
      exact ⟨f, rfl, hd.1⟩
  · rcases hmm with ⟨-, -, h1⟩ | ⟨-, -, h1, h2, -⟩
    · exact h1
    · omega

theorem roundSqrt_spec (n : Nat) : (2 * (roundSqrt n : Int) - 1) ^ 2 ≤ 4 * n + 1 ∧ 4 * (n : Int) ≤ (2 * (roundSqrt n : Int) + 1) ^ 2 := by
  have h1 : Nat.sqrt n * Nat.sqrt n ≤ n := Nat.sqrt_le n
  have h2 : n < (Nat.sqrt n + 1) * (Nat.sqrt n + 1) := Nat.lt_succ_sqrt n
  unfold roundSqrt
  simp only
  set s := Nat.sqrt n
  clear_value s
  by_cases h : n ≤ s * s + s
  · rw [if_pos h]
    zify at h1 h2 h
    constructor <;> push_cast <;> nlinarith
  · rw [if_neg h]
    zify at h1 h2 h
    constructor <;> push_cast <;> nlinarith

theorem roundEven_spec (q : ℚ) : |(roundEven q : ℚ) - q| ≤ 1 / 2 := by
  have h1 := Int.floor_le q
  have h2 := Int.lt_floor_add_one q
  unfold roundEven
  simp only
  by_cases ha : q - ⌊q⌋ < 1 / 2
  · rw [if_pos ha, abs_le]; constructor <;> linarith
  · rw [if_neg ha]
    by_cases hb : 1 / 2 < q - ⌊q⌋
    · rw [if_pos hb, abs_le]; push_cast; constructor <;> linarith
    · rw [if_neg hb]
      by_cases hc : ⌊q⌋ % 2 = 0
      · rw [if_pos hc, abs_le]; constructor <;> linarith
      · rw [if_neg hc, abs_le]; push_cast; constructor <;> linarith

/-- C137: how the parameters determine the size. -/
theorem C137_meaning_partial (size : Int) (n : Nat) :
    (0 ≤ size → sizeOf .m size n = size) ∧ (size < 0 → sizeOf .m size n = n + size) ∧
    (∃ r : Int, (2 * r - 1) ^ 2 ≤ 4 * n + 1 ∧ 4 * (n : Int) ≤ (2 * r + 1) ^ 2 ∧ sizeOf .sqrt size n = r + 1 ∧
      (r + 1 ≤ n → sizeOf .sqrtInv size n = n - (r + 1))) ∧
    (0 ≤ size → 2 ≤ sizeOf .percent size n →
      |(sizeOf .percent size n : ℚ) - n * (size / 100)| ≤ 1 / 2 ∨ sizeOf .percent size n = 2) ∧
    (-100 ≤ size → size < 0 → sizeOf .percent size n = sizeOf .percent (100 + size) n) := by
  refine ⟨fun h => ?_, fun h => ?_, ⟨roundSqrt n, (roundSqrt_spec n).1, (roundSqrt_spec n).2, ?_, fun h => ?_⟩, fun h h2 => ?_, fun h h2 => ?_⟩
  · simp only [sizeOf]; rw [if_neg (by omega)]
  · simp only [sizeOf]; rw [if_pos h]
  · simp only [sizeOf]; rw [if_neg (by omega)]
  · simp only [sizeOf]; rw [if_neg (by omega)]
  · have hp : (0 : ℚ) ≤ n * ((size : ℚ) / 100) := by
      have : (0 : ℚ) ≤ (size : ℚ) := by exact_mod_cast h
      positivity
    have hr := roundEven_spec (n * ((size : ℚ) / 100))
    have hr0 : 0 ≤ roundEven (n * ((size : ℚ) / 100)) := by
      by_contra hc
      have : roundEven (n * ((size : ℚ) / 100)) ≤ -1 := by omega
      have : ((roundEven (n * ((size : ℚ) / 100)) : Int) : ℚ) ≤ -1 := by exact_mod_cast this
      rw [abs_le] at hr
      linarith [hr.1]
    simp only [sizeOf, if_neg (show ¬ size < 0 by omega)] at h2 ⊢
    by_cases hs : roundEven (n * ((size : ℚ) / 100)) < 2
    · simp only [if_pos hs] at h2 ⊢
      rw [if_neg (by omega)] at h2 ⊢
      right; omega
    · simp only [if_neg hs] at h2 ⊢
      rw [if_neg (by omega)] at h2 ⊢
      exact .inl hr
  · simp only [sizeOf, if_pos h2, if_neg (show ¬ 100 + size < 0 by omega)]
    push_cast
    rfl

/-- C137 fails: subspaces of one feature are refused and have two features instead. -/
theorem C137_one_feature_violated :
    assign 1 (fun _ => []) [0, 1, 2] .patches .m 1 4 3 =
      some (.ok (.patches, [some [0, 1], some [0, 2], some [0, 3]])) := by
  rfl

/-- C137 fails: leaving out more features than there are ends in a `RecursionError`. -/
theorem C137_too_negative_violated (fuel : Nat) (choice : Nat → List Nat) (sh : List Nat) (meth : Method) (size : Int)
    (n N : Nat) (hm : meth ≠ .resampling) (hs : size < -(n : Int)) :
    assign fuel choice sh meth .m size n N = some (.error .other) := by
  have h1 : sizeOf .m size n = n + size := by simp only [sizeOf]; rw [if_pos (by omega)]
  unfold assign start
  rw [if_neg hm, h1, if_pos ⟨by omega, by omega⟩, if_pos (.inr (by omega))]
  simp only [if_neg (show ¬ ((n : Int) + size = 1 ∧ n > 2) by omega), if_pos (show (n : Int) + size < 0 by omega)]
  rfl

/-- C137 fails: random subspaces (every sample used once) with a size of all features turn
into resampling. -/
theorem C137_method_changed_violated (fuel : Nat) (choice : Nat → List Nat) (sh : List Nat) (n N : Nat) :
    assign fuel choice sh .subspaces .m n n N = some (.ok (.resampling, List.replicate N none)) := by
  have h1 : sizeOf .m n n = n := by simp only [sizeOf]; rw [if_neg (by omega)]
  unfold assign start
  rw [h1, if_neg (by decide), if_neg (by omega)]
  rfl

example : sizeOf .percent 60 10 = 6 ∧ sizeOf .percent (-40) 10 = 6 ∧ sizeOf .sqrt 0 10 = 4 ∧ sizeOf .sqrtInv 0 10 = 6 ∧
    sizeOf .m (-3) 10 = 7 ∧ sizeOf .percent 25 10 = 2 ∧ sizeOf .percent 1 10 = 1 := by decide +kernel

end Verif.Meta.Patches
