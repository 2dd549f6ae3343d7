import Verif.Meta.LearnNSEProps
import Mathlib.Algebra.Order.BigOperators.Group.List
import Mathlib.Tactic.Ring
import Mathlib.Tactic.NormNum
import Mathlib.Data.List.Sort
import Mathlib.Data.List.Nodup
import Mathlib.Data.List.Dedup
import Mathlib.Data.List.Perm.Subperm

/-!
C151: the votes of a `LearnPPNSEClassifier`; C152: the `classes` argument and `reset`.
-/

namespace Verif.Meta.NSE

open Windows

variable {F X S : Type} [Field F] [LinearOrder F]

/-- Specification: the probability a learner gives to class `c`: the entry of its row at the
position of `c` among the classes the learner knows, 0 if it does not know `c`. -/
def probOf (obs : List Int) (row : List F) (c : Int) : F :=
  match (obs.zip row).find? (fun p => p.1 == c) with
  | some p => p.2
  | none => 0

/-- Specification: what a member adds to class `c`: its positive voting weight times the
probability it gives to `c`. -/
def share (E : Env F X S) (x : X) (c : Int) (m : Member F S) : F :=
  match m.vw with
  | none => 0
  | some w => if 0 < w then w * probOf ((E.known m.model).getD []) (E.proba m.model x) c else 0

/-- The learner tells its classes, in increasing order and all among `classes`, and returns a
probability for each; it knows at least two of them (or there is only one). -/
def WellBehaved (E : Env F X S) (classes : List Int) (x : X) (s : S) : Prop :=
  ∃ obs, E.known s = some obs ∧ obs.Pairwise (· < ·) ∧ (∀ c ∈ obs, c ∈ classes) ∧
    (E.proba s x).length = obs.length ∧ (2 ≤ obs.length ∨ obs.length = classes.length)

theorem pos_sorted (classes : List Int) (hs : classes.Pairwise (· < ·)) (i : Nat) (c : Int) (h : classes[i]? = some c) :
    position classes c = some i := by
  unfold position
  have hsort : classes.zipIdx.insertionSort (fun a b => a.1 ≤ b.1) = classes.zipIdx := by
    apply List.Pairwise.insertionSort_eq
    rw [List.pairwise_iff_getElem] at hs ⊢
    intro p q hp hq hpq
    simp only [List.getElem_zipIdx]
    have := hs p q (by simpa using hp) (by simpa using hq) hpq
    exact this.le
  rw [hsort]
  have hcount : classes.countP (fun d => d < c) = i := by
    clear hsort
    induction classes generalizing i with
    | nil => simp at h
    | cons d l ih =>
      rw [List.pairwise_cons] at hs
      rw [List.countP_cons]
      cases i with
      | zero =>
        simp at h
        subst h
        have : l.countP (fun x => decide (x < d)) = 0 := by
          rw [List.countP_eq_zero]
          intro x hx
          have := hs.1 x hx
          simp; omega
        simp [this]
      | succ i =>
        rw [ih hs.2 i (by simpa using h)]
        have : d < c := hs.1 c (List.mem_of_getElem? (by simpa using h))
        simp [this]
  rw [hcount]
  rw [List.getElem?_zipIdx, h]
  simp

/-- Writing values at distinct positions, read back. -/
theorem foldl_set (idx : List Nat) (row : List F) (base : List F) (j : Nat) (hj : j < base.length) :
    ((idx.zip row).foldl (fun acc p => acc.set p.1 p.2) base).length = base.length ∧
    (idx.Nodup → ((idx.zip row).foldl (fun acc p => acc.set p.1 p.2) base)[j]? =
      some (match (idx.zip row).find? (fun p => p.1 == j) with | some p => p.2 | none => base.getD j 0)) := by
  induction idx generalizing row base with
  | nil =>
    refine ⟨by simp, fun _ => ?_⟩
    simp [List.getElem?_eq_getElem hj]
  | cons a idx ih =>
    cases row with
    | nil =>
      refine ⟨by simp, fun _ => ?_⟩
      simp [List.getElem?_eq_getElem hj]
    | cons r row =>
      simp only [List.zip_cons_cons, List.foldl_cons]
      obtain ⟨h1, h2⟩ := ih row (base.set a r) (by simpa using hj)
      refine ⟨by rw [h1]; simp, ?_⟩
      intro hn
      rw [List.nodup_cons] at hn
      rw [h2 hn.2]
      congr 1
      by_cases ha : a = j
      · subst ha
        have hnone : (idx.zip row).find? (fun p => p.1 == a) = none := by
          rw [List.find?_eq_none]
          rintro ⟨p1, p2⟩ hp
          have := (List.of_mem_zip hp).1
          simp only [beq_iff_eq]
          rintro rfl
          exact hn.1 this
        rw [hnone, List.find?_cons]
        simp [hj]
      · rw [List.find?_cons]
        simp only [beq_eq_false_iff_ne.mpr ha]
        cases (idx.zip row).find? (fun p => p.1 == j) with
        | some p => rfl
        | none => simp [List.getElem?_set, ha]

theorem mapM_pos (classes obs : List Int) (hs : classes.Pairwise (· < ·)) (hsub : ∀ c ∈ obs, c ∈ classes) :
    ∃ idx : List Nat, obs.mapM (position classes) = some idx ∧
      List.Forall₂ (fun c i => classes[i]? = some c) obs idx := by
  induction obs with
  | nil => exact ⟨[], rfl, .nil⟩
  | cons c obs ih =>
    obtain ⟨idx, h1, h2⟩ := ih fun d hd => hsub d (by simp [hd])
    obtain ⟨i, hi⟩ := List.mem_iff_getElem?.mp (hsub c (by simp))
    exact ⟨i :: idx, by simp [List.mapM_cons, pos_sorted classes hs i c hi, h1], .cons hi h2⟩

theorem find_corr (classes obs : List Int) (idx : List Nat) (row : List F) (hs : classes.Nodup)
    (h : List.Forall₂ (fun c (i : Nat) => classes[i]? = some c) obs idx) (j : Nat) (c : Int) (hj : classes[j]? = some c) :
    ((idx.zip row).find? (fun p => p.1 == j)).map Prod.snd = ((obs.zip row).find? (fun p => p.1 == c)).map Prod.snd := by
  induction h generalizing row with
  | nil => simp
  | @cons d i obs idx hdi _ ih =>
    cases row with
    | nil => simp
    | cons r row =>
      simp only [List.zip_cons_cons, List.find?_cons]
      by_cases hij : i = j
      · subst hij
        rw [hj] at hdi
        cases hdi
        simp
      · have hcd : d ≠ c := by
          rintro rfl
          exact hij ((List.getElem?_inj (List.getElem?_eq_some_iff.mp hdi).1 hs).mp (hdi.trans hj.symm))
        simp only [beq_eq_false_iff_ne.mpr hij, beq_eq_false_iff_ne.mpr hcd]
        exact ih row

theorem fill_spec (classes obs : List Int) (row : List F) (hs : classes.Pairwise (· < ·)) (ho : obs.Pairwise (· < ·))
    (hsub : ∀ c ∈ obs, c ∈ classes) (hl : row.length = obs.length) :
    fill classes obs row = Except.ok (classes.map (probOf obs row)) := by
  obtain ⟨idx, h1, h2⟩ := mapM_pos classes obs hs hsub
  have hnd : classes.Nodup := hs.imp fun h => ne_of_lt h
  have hnd' : obs.Nodup := ho.imp fun h => ne_of_lt h
  have hidx : idx.Nodup := by
    clear h1 hl hsub ho
    induction h2 with
    | nil => exact List.nodup_nil
    | @cons d i obs idx hdi hrest ih =>
      rw [List.nodup_cons] at hnd' ⊢
      refine ⟨?_, ih hnd'.2⟩
      intro hmem
      obtain ⟨q, hq⟩ := List.mem_iff_getElem?.mp hmem
      have hlq : q < obs.length := by rw [hrest.length_eq]; exact (List.getElem?_eq_some_iff.mp hq).1
      have := get_of_forall₂ hrest q obs[q] i (List.getElem?_eq_getElem hlq) hq
      rw [hdi] at this
      cases this
      exact hnd'.1 (List.getElem_mem hlq)
  have hil := h2.length_eq
  unfold fill
  rw [h1]
  simp only
  rw [if_pos (by omega)]
  congr 1
  apply List.ext_getElem?
  intro j
  by_cases hj : j < classes.length
  · obtain ⟨_, h4⟩ := foldl_set idx row (List.replicate classes.length (0 : F)) j (by simpa using hj)
    rw [h4 hidx, List.getElem?_map, List.getElem?_eq_getElem hj, Option.map_some]
    congr 1
    have := find_corr classes obs idx row hnd h2 j classes[j] (List.getElem?_eq_getElem hj)
    unfold probOf
    cases ha : (idx.zip row).find? (fun p => p.1 == j) with
    | some p =>
      rw [ha] at this
      cases hb : (obs.zip row).find? (fun p => p.1 == classes[j]) with
      | some q => rw [hb] at this; simpa using this
      | none => rw [hb] at this; cases this
    | none =>
      rw [ha] at this
      cases hb : (obs.zip row).find? (fun p => p.1 == classes[j]) with
      | some q => rw [hb] at this; cases this
      | none => simp [hj]
  · rw [List.getElem?_eq_none, List.getElem?_eq_none]
    · simp; omega
    · cases hc : classes with
      | nil => 
        rw [hc] at hsub
        cases obs with
        | nil =>
          cases h2
          simp
        | cons c obs => exact absurd (hsub c (by simp)) (by simp)
      | cons c l =>
        rw [← hc]
        obtain ⟨h3, _⟩ := foldl_set idx row (List.replicate classes.length (0 : F)) 0 (by simp [hc])
        rw [h3]; simp; omega

/-- An increasing list inside another of the same length is that list. -/
theorem eq_of_sub (classes obs : List Int) (hs : classes.Pairwise (· < ·)) (ho : obs.Pairwise (· < ·))
    (hsub : ∀ c ∈ obs, c ∈ classes) (hl : obs.length = classes.length) : obs = classes := by
  have hnd' : obs.Nodup := ho.imp fun h => ne_of_lt h
  have hperm : obs.Perm classes := (List.Nodup.subperm hnd' hsub).perm_of_length_le hl.ge
  exact hperm.eq_of_pairwise (fun a b _ _ h1 h2 => absurd h1 (not_lt.mpr h2.le)) ho hs

theorem probOf_self (classes : List Int) (row : List F) (hs : classes.Nodup) (hl : row.length = classes.length) :
    classes.map (probOf classes row) = row := by
  apply List.ext_getElem?
  intro j
  by_cases hj : j < classes.length
  · rw [List.getElem?_map, List.getElem?_eq_getElem hj, Option.map_some, List.getElem?_eq_getElem (by omega)]
    congr 1
    unfold probOf
    have : (classes.zip row).find? (fun p => p.1 == classes[j]) = some (classes[j], row[j]) := by
      rw [List.find?_eq_some_iff_getElem]
      refine ⟨by simp, j, by simp; omega, by simp, ?_⟩
      intro i hi
      simp only [List.getElem_zip]
      simp only [Bool.not_eq_eq_eq_not, Bool.not_true, beq_eq_false_iff_ne]
      intro heq
      have := (List.Nodup.getElem_inj_iff hs).mp heq
      omega
    rw [this]
  · rw [List.getElem?_eq_none (by simp; omega), List.getElem?_eq_none (by omega)]

theorem addVote_ok (E : Env F X S) (classes : List Int) (hs : classes.Pairwise (· < ·)) (x : X) (m : Member F S)
    (hm : WellBehaved E classes x m.model) (f : Int → F) :
    addVote E classes x (classes.map f) m = Except.ok (classes.map fun c => f c + share E x c m) := by
  obtain ⟨obs, h1, h2, h3, h4, h5⟩ := hm
  unfold addVote share
  cases hv : m.vw with
  | none => simp
  | some w =>
    simp only
    by_cases hw : 0 < w
    · simp only [if_pos hw, h1, Option.getD_some]
      have hnd : classes.Nodup := hs.imp fun h => ne_of_lt h
      by_cases hl : obs.length = classes.length
      · have := eq_of_sub classes obs hs h2 h3 hl
        subst this
        have hr := probOf_self obs (E.proba m.model x) hnd h4
        unfold addRow
        rw [if_pos (by simp [h4])]
        simp only
        congr 1
        conv_lhs => rw [← hr]
        rw [List.map_map, List.zipWith_map, List.zipWith_self]
        rfl
      · have hlen : 2 ≤ obs.length := h5.resolve_right hl
        have hrow : addRow (classes.map f) ((E.proba m.model x).map (w * ·)) = none := by
          unfold addRow
          rw [if_neg (by simp [h4, hl])]
          cases hp : E.proba m.model x with
          | nil => rfl
          | cons a l =>
            cases l with
            | nil => rw [hp] at h4; simp at h4; omega
            | cons b l => rfl
        rw [hrow]
        simp only [fill_spec classes obs (E.proba m.model x) hs h2 h3 h4]
        congr 1
        rw [List.map_map, List.zipWith_map, List.zipWith_self]
        rfl
    · simp only [if_neg hw, add_zero]

/-- C151 (what holds): for classes given in increasing order and well behaved learners, the
score of class `c` is the sum, over the members with a positive voting weight, of the weight
times the probability the member gives to `c`; `predict` is the position of the first class
with the highest score. -/
theorem C151_votes_partial (E : Env F X S) (classes : List Int) (hs : classes.Pairwise (· < ·)) (x : X)
    (ms : List (Member F S)) (hne : ms ≠ []) (hc : classes ≠ []) (hm : ∀ m ∈ ms, WellBehaved E classes x m.model) :
    probaRow E classes ms x = Except.ok (classes.map fun c => (ms.map (share E x c)).sum) ∧
    ∃ (i : Nat) (c : Int), predict E classes ms x = Except.ok i ∧ classes[i]? = some c ∧
      ∀ (j : Nat) (d : Int), classes[j]? = some d →
        (ms.map (share E x d)).sum ≤ (ms.map (share E x c)).sum ∧
        (j < i → (ms.map (share E x d)).sum < (ms.map (share E x c)).sum) := by
  have gen : ∀ (ms : List (Member F S)) (f : Int → F), (∀ m ∈ ms, WellBehaved E classes x m.model) →
      ms.foldlM (addVote E classes x) (classes.map f) =
        Except.ok (classes.map fun c => f c + (ms.map (share E x c)).sum) := by
    intro ms
    induction ms with
    | nil => intro f _; simp [pure, Except.pure]
    | cons m ms ih =>
      intro f hm
      rw [List.foldlM_cons, addVote_ok E classes hs x m (hm m (by simp)) f]
      simp only [bind, Except.bind]
      rw [ih _ (fun m' hm' => hm m' (by simp [hm']))]
      simp only [List.map_cons, List.sum_cons, add_assoc]
  have hrow : probaRow E classes ms x = Except.ok (classes.map fun c => (ms.map (share E x c)).sum) := by
    rw [probaRow, if_neg hne]
    have := gen ms (fun _ => 0) hm
    simp only [zero_add] at this
    rw [← this]
    congr 1
    rw [List.eq_replicate_iff.mpr ⟨List.length_map .., ?_⟩]
    intro b hb
    obtain ⟨_, _, rfl⟩ := List.mem_map.mp hb
    rfl
  refine ⟨hrow, ?_⟩
  obtain ⟨v, h1, h2, h3⟩ := amax_spec (classes.map fun c => (ms.map (share E x c)).sum) (by simpa using hc)
  rw [List.getElem?_map] at h1
  obtain ⟨c, hc1, rfl⟩ := Option.map_eq_some_iff.mp h1
  refine ⟨_, c, by rw [predict, hrow]; rfl, hc1, ?_⟩
  intro j d hd
  refine ⟨h2 _ (List.mem_map.mpr ⟨d, List.mem_of_getElem? hd, rfl⟩), fun hj => h3 j _ hj ?_⟩
  rw [List.getElem?_map, hd]; rfl

/-- C151: when the classes are `0, ..., n-1`, the position `predict` answers is the class. -/
theorem C151_label_partial (n i : Nat) (c : Int) (h : ((List.range n).map fun j : Nat => (j : Int))[i]? = some c) :
    c = i := by
  rw [List.getElem?_map] at h
  obtain ⟨j, hj, rfl⟩ := Option.map_eq_some_iff.mp h
  have := List.getElem?_eq_some_iff.mp hj
  simp at this
  exact_mod_cast this.2.symm

/-- C151 (violated): a member whose learner knows a single class adds its weight to every
class, so it has no influence on the prediction: whatever the other members, and even if it
is the only one, the scores it leaves are shifted by the same number. -/
theorem C151_single_class_violated (E : Env F X S) (classes : List Int) (hc : classes.length ≠ 1) (x : X)
    (m : Member F S) (w p : F) (hv : m.vw = some w) (hw : 0 < w) (hp : E.proba m.model x = [p]) (votes : List F)
    (hl : votes.length = classes.length) :
    addVote E classes x votes m = Except.ok (votes.map (· + w * p)) := by
  unfold addVote
  simp only [hv, if_pos hw, hp, List.map_singleton]
  unfold addRow
  rw [if_neg (by simp only [List.length_singleton]; omega)]

/-- C151 (violated): so an ensemble trained on windows of one class `c ≠ 0` only, whatever it
has seen, answers class 0 (position 0) for every sample. -/
theorem C151_one_class_answer_violated [IsStrictOrderedRing F] (E : Env F X S) (classes : List Int) (hc : 2 ≤ classes.length) (x : X)
    (ms : List (Member F S)) (hne : ms ≠ []) (hp : ∀ m ∈ ms, E.proba m.model x = [1]) :
    predict E classes ms x = Except.ok 0 := by
  have gen : ∀ (ms : List (Member F S)) (a : F), (∀ m ∈ ms, E.proba m.model x = [1]) →
      ∃ b, ms.foldlM (addVote E classes x) (List.replicate classes.length a) = Except.ok (List.replicate classes.length b) := by
    intro ms
    induction ms with
    | nil => intro a _; exact ⟨a, rfl⟩
    | cons m ms ih =>
      intro a hp
      rw [List.foldlM_cons]
      have : ∃ b, addVote E classes x (List.replicate classes.length a) m = Except.ok (List.replicate classes.length b) := by
        cases hv : m.vw with
        | none => exact ⟨a, by simp [addVote, hv]⟩
        | some w =>
          by_cases hw : 0 < w
          · rw [C151_single_class_violated E classes (by omega) x m w 1 hv hw (hp m (by simp)) _ (by simp)]
            exact ⟨a + w * 1, by simp⟩
          · exact ⟨a, by simp [addVote, hv, hw]⟩
      obtain ⟨b, hb⟩ := this
      rw [hb]
      exact ih b fun m' hm' => hp m' (by simp [hm'])
  obtain ⟨b, hb⟩ := gen ms 0 hp
  rw [predict, probaRow, if_neg hne, hb]
  simp only [Except.map]
  congr 1
  obtain ⟨v, h1, h2, h3⟩ := amax_spec (List.replicate classes.length b) (by
    intro hn
    rw [List.replicate_eq_nil_iff] at hn
    omega)
  by_contra hne0
  have hlt : 0 < classes.length := by omega
  have e1 : v = b := by
    have := List.mem_of_getElem? h1
    exact (List.mem_replicate.mp this).2
  have := h3 0 b (by omega) (by rw [List.getElem?_replicate, if_pos hlt])
  rw [e1] at this
  exact lt_irrefl _ this

/-- Learners trained on the only class of each window, `1`: the answer is 0.  With the
classes 0 and 1 in the window, of three, the vote goes to class 1. -/
def toyV : Env ℚ Nat (List Int) :=
  { fit := fun _ b => (b.map Prod.snd).dedup.insertionSort (· ≤ ·), pred := fun s _ => s.getLastD 0,
    proba := fun s _ => (List.replicate (s.length - 1) 0) ++ [1], known := fun s => some s,
    lg := fun x => x - 1, sig := fun _ => 1, eps := 1 / 1000, window := 3, cap := 1, pruning := .none }

example : ((run toyV [(some [0, 1], [(7, 1), (8, 1), (9, 1)])]).toOption.map fun c => (predict toyV [0, 1] c.st.members 5).toOption) = some (some 0) ∧
    ((run toyV [(some [0, 1, 2], [(7, 0), (8, 1), (9, 1)])]).toOption.map fun c => (probaRow toyV [0, 1, 2] c.st.members 5).toOption) =
      some (some [0, 499 / 501, 0]) := by
  decide +kernel

/-! ### `classes` and `reset` -/

/-- C152 (what holds): the first call without `classes` raises. -/
theorem C152_first_call_partial (E : Env F X S) (xs : List (X × Int)) :
    partialFit E (blank : Cls F X S) none xs = Except.error .other := rfl

/-- C152 (violated): the documented error for later calls with different classes is never
raised: the argument is not looked at. -/
theorem C152_ignored_violated (E : Env F X S) (c : Cls F X S) (k : List Int) (hk : c.classes = some k)
    (other : Option (List Int)) (xs : List (X × Int)) :
    partialFit E c other xs = partialFit E c none xs := by
  unfold partialFit; rw [hk]

/-- C152 (violated): `reset` keeps the classes: after it, `partial_fit` without classes is
accepted, and with new classes the old ones stay in use. -/
theorem C152_reset_violated (E : Env F X S) (c : Cls F X S) (k : List Int) (hk : c.classes = some k)
    (other : Option (List Int)) :
    (reset c).classes = some k ∧ partialFit E (reset c) other [] = Except.ok (reset c) := by
  refine ⟨hk, ?_⟩
  unfold partialFit
  simp only [reset, hk, feed]

/-- C152 (what holds): apart from that (and the state of the random generator) a reset
classifier is a new one: it learns what a new classifier given the kept classes learns. -/
theorem C152_fresh_partial (E : Env F X S) (c : Cls F X S) (k : List Int) (hk : c.classes = some k)
    (hf : ∀ n b, E.fit n b = E.fit 0 b) (other : Option (List Int)) (xs : List (X × Int)) :
    (partialFit E (reset c) other xs).map (fun d => (d.classes, d.st.members, d.buf)) =
      (partialFit E blank (some k) xs).map (fun d => (d.classes, d.st.members, d.buf)) := by
  have key : ∀ (xs : List (X × Int)) (ms : List (Member F S)) (a a' : Nat) (b : List (X × Int)),
      (fun r : (State F S × List (X × Int)) × Option PyErr => (r.1.1.members, r.1.2, r.2)) (feed E.window (process E k) (⟨ms, a⟩, b) xs) =
      (fun r : (State F S × List (X × Int)) × Option PyErr => (r.1.1.members, r.1.2, r.2)) (feed E.window (process E k) (⟨ms, a'⟩, b) xs) := by
    intro xs
    induction xs with
    | nil => intro ms a a' b; rfl
    | cons p xs ih =>
      intro ms a a' b
      rw [feed, feed]
      by_cases hl : (b ++ [p]).length = E.window
      · rw [if_pos hl, if_pos hl]
        have hproc : ∀ a a', (process E k ⟨ms, a⟩ (b ++ [p])).map State.members = (process E k ⟨ms, a'⟩ (b ++ [p])).map State.members := by
          intro a a'
          have hnew : newMem E a (b ++ [p]) = newMem E a' (b ++ [p]) := by rw [newMem, newMem, hf a, hf a']
          have hev : ∀ iw i m, evalMember E (a + 1) (b ++ [p]) iw i m = evalMember E (a' + 1) (b ++ [p]) iw i m := by
            intro iw i m
            unfold evalMember
            rw [hf (a + 1), hf (a' + 1)]
          unfold process
          simp only [hnew, hev]
          by_cases he : ms = []
          · rw [if_pos he, if_pos he]; rfl
          · rw [if_neg he, if_neg he]
            cases ensembleWrongs E k ms (b ++ [p]) <;> rfl
        have h := hproc a a'
        cases h1 : process E k ⟨ms, a⟩ (b ++ [p]) with
        | error e =>
          cases h2 : process E k ⟨ms, a'⟩ (b ++ [p]) with
          | error e' => rw [h1, h2] at h; cases h; rfl
          | ok s' => rw [h1, h2] at h; cases h
        | ok s =>
          cases h2 : process E k ⟨ms, a'⟩ (b ++ [p]) with
          | error e' => rw [h1, h2] at h; cases h
          | ok s' =>
            rw [h1, h2] at h
            obtain ⟨m1, a1⟩ := s
            obtain ⟨m2, a2⟩ := s'
            simp only [Except.map, Except.ok.injEq] at h
            subst h
            exact ih m1 a1 a2 []
      · rw [if_neg hl, if_neg hl]; exact ih ms a a' _
  have h := key xs [] c.st.fits 0 []
  unfold partialFit
  simp only [reset, hk, blank]
  obtain ⟨⟨⟨m1, a1⟩, b1⟩, o1, h1⟩ : ∃ q o, feed E.window (process E k) (⟨[], c.st.fits⟩, []) xs = (q, o) := ⟨_, _, rfl⟩
  obtain ⟨⟨⟨m2, a2⟩, b2⟩, o2, h2⟩ : ∃ q o, feed E.window (process E k) (⟨[], 0⟩, []) xs = (q, o) := ⟨_, _, rfl⟩
  rw [h1, h2] at h
  simp only [Prod.mk.injEq] at h
  obtain ⟨rfl, rfl, rfl⟩ := h
  rw [h1, h2]
  cases o1 <;> rfl

example : ((run (toy .none 1) [(some [0, 1], [(7, 0)]), (some [5, 9], [])]).toOption.map fun c => (reset c).classes) =
    some (some [0, 1]) := by decide +kernel

end Verif.Meta.NSE
