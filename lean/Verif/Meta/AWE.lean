import Verif.Lazy.KNN
import Mathlib.Data.List.Sort
import Mathlib.Data.List.Induction
import Mathlib.Algebra.BigOperators.Group.Finset.Basic
import Mathlib.Algebra.BigOperators.Ring.List
import Mathlib.Algebra.Order.BigOperators.Group.List

/-!
Model of `meta/accuracy_weighted_ensemble.py` (chunk filling, pool maintenance, model
weights, voting); C40, C73.

Simplifications: training, the score of the new model under cross-validation and member
predictions are arbitrary functions; labels are integers.
-/

namespace Verif.Meta.AWE

variable {S M : Type}

/-! ### Weights -/

/-- `compute_baseline`, lines 425-458 (`np.unique` as the distinct labels). -/
def baseline (y : List Int) : ℚ :=
  (y.dedup.map fun c => let d := (y.count c : ℚ) / y.length; d * (1 - d) * (1 - d)).sum

/-- `compute_score`, lines 316-353: for every sample of the chunk the probability given to
its true label, `none` if the model has not seen that label. -/
def score (ps : List (Option ℚ)) : ℚ :=
  (ps.map fun
    | some p => (1 - p) * (1 - p)
    | none => 1).sum / ps.length

/-- Last line of `compute_weight` (line 422). -/
def weight (base sc : ℚ) : ℚ := max 0 (base - sc)

/-! ### The pool -/

/-- First position of the smallest weight: `min(self.models_pool, key=...)`, line 212. -/
def minIdx : List (M × ℚ) → Option (Nat × ℚ)
  | [] => none
  | a :: rest => match minIdx rest with
    | none => some (0, a.2)
    | some (i, w) => if a.2 ≤ w then some (0, a.2) else some (i + 1, w)

/-- Lines 200-217: re-weigh the pool on the chunk and offer it the new model. -/
def updatePool (kept : Nat) (reweigh : M → ℚ) (new : M × ℚ) (pool : List (M × ℚ)) :
    Except PyErr (List (M × ℚ)) :=
  let pool := pool.map fun a => (a.1, reweigh a.1)
  if pool.length < kept then .ok (pool ++ [new])
  else match minIdx pool with
    | none => .error .valueError
    | some (i, w) => if w < new.2 then .ok (pool.eraseIdx i ++ [new]) else .ok pool

/-- External functions: train on a chunk, weight of the new model and of an old one. -/
structure Ext (S M : Type) where
  train : List S → M
  weightNew : List S → ℚ
  weightOld : List S → M → ℚ

/-- State: chunk pointer, chunk array, pool.  (`p = -1` and unallocated arrays before the
first call are represented by `p = 0` and an array of arbitrary content.) -/
structure St (S M : Type) where
  p : Nat
  buf : List S
  pool : List (M × ℚ)

/-- Body of the loop of `partial_fit`, lines 177-217. -/
def fitOne (w kept : Nat) (E : Ext S M) (s : St S M) (x : S) : Except PyErr (St S M) :=
  let buf := s.buf.set s.p x
  if s.p + 1 = w then
    match updatePool kept (E.weightOld buf) (E.train buf, E.weightNew buf) s.pool with
    | .ok pool => .ok ⟨0, buf, pool⟩
    | .error e => .error e
  else .ok ⟨s.p + 1, buf, s.pool⟩

/-- A stream of samples. -/
def fit (w kept : Nat) (E : Ext S M) (s : St S M) (xs : List S) : Except PyErr (St S M) :=
  xs.foldlM (fitOne w kept E) s

/-! ### Voting -/

/-- `if label in d: d[label] += v else: d[label] = v` on an insertion-ordered dict. -/
def addVote : List (Int × ℚ) → Int → ℚ → List (Int × ℚ)
  | [], l, v => [(l, v)]
  | a :: rest, l, v => if a.1 = l then (a.1, a.2 + v) :: rest else a :: addVote rest l v

/-- `max(dic.items(), key=itemgetter(1))`: the first item with the largest value. -/
def best : List (Int × ℚ) → Option (Int × ℚ)
  | [] => none
  | a :: rest => match best rest with
    | none => some a
    | some b => if b.2 ≤ a.2 then some a else some b

/-- The models used, lines 272-276: the `n` heaviest (stable sort in descending order). -/
def top (n : Nat) (pool : List (M × ℚ)) : List (M × ℚ) :=
  (pool.insertionSort fun a b => a.2 ≥ b.2).take (min n pool.length)

/-- Lines 278-280. -/
def sumWeights (ens : List (M × ℚ)) : ℚ :=
  let s := (ens.map fun a => |a.2|).sum
  if s = 0 then 1 else s

/-- The one dictionary shared by all rows: `[dict()] * N` holds the same object `N`
times, so all votes of all rows go there (lines 282-290). -/
def sharedVotes (sw : ℚ) (ens : List (M × ℚ)) (pred : M → List Int) : List (Int × ℚ) :=
  ens.foldl (fun d m => (pred m.1).foldl (fun d l => addVote d l (m.2 / sw)) d) []

/-- `predict`, lines 259-296, on `N` rows; `pred m` lists the labels given by `m`. -/
def predict (n N : Nat) (pool : List (M × ℚ)) (pred : M → List Int) : Except PyErr (List Int) :=
  if pool.length = 0 then .ok (List.replicate N 0)
  else
    let ens := top n pool
    match best (sharedVotes (sumWeights ens) ens pred) with
    | none => if N = 0 then .ok [] else .error .valueError
    | some b => .ok (List.replicate N b.1)

/-! ### Theorems: voting -/

theorem best_spec (d : List (Int × ℚ)) (h : d ≠ []) :
    ∃ b, best d = some b ∧ b ∈ d ∧ ∀ a ∈ d, a.2 ≤ b.2 := by
  induction d with
  | nil => exact absurd rfl h
  | cons a d ih =>
    by_cases hd : d = []
    · subst hd; exact ⟨a, rfl, by simp, by simp⟩
    · obtain ⟨b, e, hb, hmax⟩ := ih hd
      rw [best, e]
      by_cases hc : b.2 ≤ a.2
      · refine ⟨a, by simp only [hc, if_true], by simp, ?_⟩
        intro x hx
        rcases List.mem_cons.mp hx with rfl | hx
        · exact le_refl _
        · exact le_trans (hmax x hx) hc
      · refine ⟨b, by simp only [hc, if_false], by simp [hb], ?_⟩
        intro x hx
        rcases List.mem_cons.mp hx with rfl | hx
        · exact le_of_lt (not_le.mp hc)
        · exact hmax x hx

/-- Value of a key (0 if absent). -/
def val (d : List (Int × ℚ)) (l : Int) : ℚ := (d.map fun a => if a.1 = l then a.2 else 0).sum

theorem val_addVote (d : List (Int × ℚ)) (l l' : Int) (v : ℚ) :
    val (addVote d l v) l' = val d l' + if l = l' then v else 0 := by
  induction d with
  | nil => simp [addVote, val]
  | cons a d ih =>
    rw [addVote]
    by_cases h : a.1 = l
    · rw [if_pos h]
      simp only [val, List.map_cons, List.sum_cons, h]
      split_ifs <;> ring
    · rw [if_neg h]
      simp only [val, List.map_cons, List.sum_cons] at ih ⊢
      rw [ih]; ring

theorem keys_addVote (d : List (Int × ℚ)) (l : Int) (v : ℚ) :
    (addVote d l v).map Prod.fst = if l ∈ d.map Prod.fst then d.map Prod.fst else d.map Prod.fst ++ [l] := by
  induction d with
  | nil => simp [addVote]
  | cons a d ih =>
    rw [addVote]
    by_cases h : a.1 = l
    · rw [if_pos h]; simp [h]
    · rw [if_neg h, List.map_cons, ih]
      by_cases h2 : l ∈ d.map Prod.fst
      · simp [h2]
      · have : ¬ l = a.1 := fun e => h e.symm
        simp only [List.map_cons, List.mem_cons, this, h2, or_self, if_false, List.cons_append]

theorem val_of_mem (d : List (Int × ℚ)) (hn : (d.map Prod.fst).Nodup) (a : Int × ℚ) (ha : a ∈ d) :
    val d a.1 = a.2 := by
  induction d with
  | nil => cases ha
  | cons b d ih =>
    rw [List.map_cons, List.nodup_cons] at hn
    simp only [val, List.map_cons, List.sum_cons] at ih ⊢
    rcases List.mem_cons.mp ha with rfl | ha
    · have hz : (d.map fun x => if x.1 = a.1 then x.2 else 0).sum = 0 := by
        have : d.map (fun x => if x.1 = a.1 then x.2 else (0 : ℚ)) = d.map fun _ => 0 := by
          apply List.map_congr_left
          intro x hx
          rw [if_neg]
          intro e
          exact hn.1 (e ▸ List.mem_map_of_mem hx)
        rw [this]; simp
      rw [hz]; simp
    · rw [ih hn.2 ha, if_neg, zero_add]
      intro e
      exact hn.1 (e ▸ List.mem_map_of_mem ha)

/-- Independent description of the vote for one row: total weight of the models that
predict `l`. -/
def voteFor (ens : List (M × ℚ)) (pred : M → Int) (l : Int) : ℚ :=
  (ens.map fun m => if pred m.1 = l then m.2 else 0).sum

theorem sharedVotes_one (sw : ℚ) (ens : List (M × ℚ)) (pred : M → Int) :
    (∀ l, val (sharedVotes sw ens fun m => [pred m]) l = voteFor ens pred l / sw) ∧
    (((sharedVotes sw ens fun m => [pred m])).map Prod.fst).Nodup ∧
    ∀ l, l ∈ ((sharedVotes sw ens fun m => [pred m])).map Prod.fst ↔ ∃ m ∈ ens, pred m.1 = l := by
  unfold sharedVotes
  induction ens using List.reverseRecOn with
  | nil => simp [val, voteFor]
  | append_singleton ens m ih =>
    obtain ⟨h1, h2, h3⟩ := ih
    rw [List.foldl_append]
    simp only [List.foldl_cons, List.foldl_nil]
    set d := ens.foldl (fun d m => [pred m.1].foldl (fun d l => addVote d l (m.2 / sw)) d) [] with hd
    have hd' : ens.foldl (fun d m => addVote d (pred m.1) (m.2 / sw)) [] = d := by rw [hd]; rfl
    rw [hd']
    refine ⟨?_, ?_, ?_⟩
    · intro l
      rw [val_addVote, h1 l]
      simp only [voteFor, List.map_append, List.sum_append, List.map_cons, List.map_nil, List.sum_cons,
        List.sum_nil, add_zero, add_div]
      split_ifs <;> simp
    · rw [keys_addVote]
      split_ifs with hm
      · exact h2
      · rw [List.nodup_append]
        refine ⟨h2, by simp, ?_⟩
        intro a ha b hb e
        rw [List.mem_singleton] at hb
        exact hm (hb ▸ e ▸ ha)
    · intro l
      rw [keys_addVote]
      have : (∃ m' ∈ ens ++ [m], pred m'.1 = l) ↔ (∃ m' ∈ ens, pred m'.1 = l) ∨ pred m.1 = l := by
        simp only [List.mem_append, List.mem_singleton]
        constructor
        · rintro ⟨a, h | h, e⟩
          · exact .inl ⟨a, h, e⟩
          · subst h; exact .inr e
        · rintro (⟨a, h, e⟩ | e)
          · exact ⟨a, .inl h, e⟩
          · exact ⟨m, .inr rfl, e⟩
      rw [this, ← h3 l]
      split_ifs with hm
      · constructor
        · exact .inl
        · rintro (h | h)
          · exact h
          · exact h ▸ hm
      · simp only [List.mem_append, List.mem_singleton]
        constructor
        · rintro (h | h)
          · exact .inl h
          · exact .inr h.symm
        · rintro (h | h)
          · exact .inl h
          · exact .inr h.symm

theorem sumWeights_pos (ens : List (M × ℚ)) : 0 < sumWeights ens := by
  simp only [sumWeights]
  split_ifs with h
  · exact one_pos
  · refine lt_of_le_of_ne ?_ (Ne.symm h)
    apply List.sum_nonneg
    intro a ha
    obtain ⟨b, _, rfl⟩ := List.mem_map.mp ha
    exact abs_nonneg _

/-- The models that vote are the heaviest: none left out is heavier than one used. -/
theorem top_spec (n : Nat) (pool : List (M × ℚ)) :
    ∃ rest, (top n pool ++ rest).Perm pool ∧ (top n pool).length = min n pool.length ∧
      ∀ a ∈ top n pool, ∀ b ∈ rest, b.2 ≤ a.2 := by
  refine ⟨(pool.insertionSort fun a b => a.2 ≥ b.2).drop (min n pool.length), ?_, ?_, ?_⟩
  · rw [top, List.take_append_drop]; exact List.perm_insertionSort _ _
  · simp [top]
  · intro a ha b hb
    haveI : Std.Total (fun a b : M × ℚ => a.2 ≥ b.2) := ⟨fun a b => le_total b.2 a.2⟩
    haveI : IsTrans (M × ℚ) (fun a b : M × ℚ => a.2 ≥ b.2) := ⟨fun a b c h1 h2 => le_trans h2 h1⟩
    have hs := List.pairwise_insertionSort (fun a b : M × ℚ => a.2 ≥ b.2) pool
    rw [← List.take_append_drop (min n pool.length) (pool.insertionSort fun a b => a.2 ≥ b.2),
      List.pairwise_append] at hs
    exact hs.2.2 a ha b hb

/-- C40 (what holds): on a single row the label returned is one predicted by some of the
`n` heaviest models and no label gets a larger total weight from them. -/
theorem C40_single_row_partial (n : Nat) (hn : 0 < n) (pool : List (M × ℚ)) (hp : pool ≠ [])
    (pred : M → Int) :
    ∃ (ens rest : List (M × ℚ)) (l : Int), (ens ++ rest).Perm pool ∧ ens.length = min n pool.length ∧
      (∀ a ∈ ens, ∀ b ∈ rest, b.2 ≤ a.2) ∧
      predict n 1 pool (fun m => [pred m]) = .ok [l] ∧ (∃ m ∈ ens, pred m.1 = l) ∧
      ∀ l', (∃ m ∈ ens, pred m.1 = l') → voteFor ens pred l' ≤ voteFor ens pred l := by
  obtain ⟨rest, h1, h2, h3⟩ := top_spec n pool
  set ens := top n pool with hens
  have hlen : 0 < pool.length := List.length_pos_of_ne_nil hp
  obtain ⟨k1, k2, k3⟩ := sharedVotes_one (sumWeights ens) ens pred
  set d := sharedVotes (sumWeights ens) ens (fun m => [pred m]) with hd
  have hne : ens ≠ [] := by
    intro e; rw [e] at h2; simp at h2; omega
  obtain ⟨m0, hm0⟩ := List.exists_mem_of_ne_nil ens hne
  have hdne : d ≠ [] := by
    intro e
    have := (k3 (pred m0.1)).mpr ⟨m0, hm0, rfl⟩
    rw [e] at this; cases this
  obtain ⟨b, hb, hbm, hmax⟩ := best_spec d hdne
  refine ⟨ens, rest, b.1, h1, h2, h3, ?_, (k3 b.1).mp (List.mem_map_of_mem hbm), ?_⟩
  · rw [predict, if_neg (by omega)]
    simp only [← hens, ← hd, hb]
    rfl
  · intro l' hl'
    obtain ⟨a, ha, rfl⟩ := List.mem_map.mp ((k3 l').mpr hl')
    have hle := hmax a ha
    rw [← val_of_mem d k2 a ha, ← val_of_mem d k2 b hbm, k1, k1] at hle
    exact (div_le_div_iff_of_pos_right (sumWeights_pos ens)).mp hle

/-- C40 (violated): for every pool, every set of rows and every behaviour of the members,
all rows receive one and the same label. -/
theorem C40_rows_share_votes_violated (n N : Nat) (pool : List (M × ℚ)) (pred : M → List Int)
    (out : List Int) (h : predict n N pool pred = .ok out) : ∃ l, out = List.replicate N l := by
  rw [predict] at h
  by_cases hp : pool.length = 0
  · rw [if_pos hp] at h
    simp only [Except.ok.injEq] at h; exact ⟨0, h.symm⟩
  · rw [if_neg hp] at h
    simp only at h
    cases hb : best (sharedVotes (sumWeights (top n pool)) (top n pool) pred) with
    | none =>
      rw [hb] at h
      by_cases hN : N = 0
      · simp only [if_pos hN, Except.ok.injEq] at h
        exact ⟨0, by rw [← h, hN]; rfl⟩
      · simp only [if_neg hN] at h; cases h
    | some b =>
      rw [hb] at h
      simp only [Except.ok.injEq] at h
      exact ⟨b.1, h.symm⟩

/-- A single model that predicts 0 for the first row and 1 for the second: both get 0. -/
example : (predict 10 2 [((), 1)] fun _ => [0, 1]) = .ok [0, 0] := by decide +kernel

/-- Before the first chunk is complete every row gets label 0. -/
theorem C40_empty_pool (n N : Nat) (pred : M → List Int) :
    predict n N ([] : List (M × ℚ)) pred = .ok (List.replicate N 0) := by simp [predict]

example : (predict 2 1 [(0, 1/4), (1, 1/3), (2, 1/2), (1, 1/3)] fun m : Nat => [if m = 2 then 7 else 8]) = .ok [7] := by
  decide +kernel

/-! ### Theorems: pool and weights -/

theorem minIdx_spec (pool : List (M × ℚ)) (h : pool ≠ []) :
    ∃ i w a, minIdx pool = some (i, w) ∧ pool[i]? = some a ∧ a.2 = w ∧ ∀ b ∈ pool, w ≤ b.2 := by
  induction pool with
  | nil => exact absurd rfl h
  | cons a pool ih =>
    by_cases hp : pool = []
    · subst hp; exact ⟨0, a.2, a, rfl, rfl, rfl, by simp⟩
    · obtain ⟨i, w, b, e, hb, hw, hmin⟩ := ih hp
      rw [minIdx, e]
      by_cases hc : a.2 ≤ w
      · refine ⟨0, a.2, a, by simp only [hc, if_true], rfl, rfl, ?_⟩
        intro x hx
        rcases List.mem_cons.mp hx with rfl | hx
        · exact le_refl _
        · exact le_trans hc (hmin x hx)
      · refine ⟨i + 1, w, b, by simp only [hc, if_false], by simpa using hb, hw, ?_⟩
        intro x hx
        rcases List.mem_cons.mp hx with rfl | hx
        · exact le_of_lt (not_le.mp hc)
        · exact hmin x hx

theorem perm_eraseIdx {α : Type} (l : List α) (i : Nat) (a : α) (h : l[i]? = some a) :
    l.Perm (a :: l.eraseIdx i) := by
  induction l generalizing i with
  | nil => simp at h
  | cons b l ih =>
    cases i with
    | zero => simp at h; subst h; simp
    | succ i =>
      simp only [List.getElem?_cons_succ] at h
      rw [List.eraseIdx_cons_succ]
      exact ((ih i h).cons b).trans (List.Perm.swap a b _)

/-- C73: offered a new model, the pool keeps the best of the old models (at their new
weights) and the new one: at most one model is dropped, only when the pool was full, and
no kept model has a smaller weight than the dropped one. -/
theorem C73_keeps_best (kept : Nat) (hk : 0 < kept) (reweigh : M → ℚ) (new : M × ℚ) (pool : List (M × ℚ))
    (hlen : pool.length ≤ kept) :
    ∃ pool' dropped, updatePool kept reweigh new pool = .ok pool' ∧
      (pool' ++ dropped).Perm ((pool.map fun a => (a.1, reweigh a.1)) ++ [new]) ∧
      pool'.length = min kept (pool.length + 1) ∧
      ∀ d ∈ dropped, ∀ a ∈ pool', d.2 ≤ a.2 := by
  rw [updatePool]
  simp only [List.length_map]
  set q := pool.map fun a => (a.1, reweigh a.1) with hq
  have hql : q.length = pool.length := by simp [hq]
  by_cases hlt : pool.length < kept
  · rw [if_pos hlt]
    exact ⟨q ++ [new], [], rfl, by simp, by simp [hql]; omega, by simp⟩
  · rw [if_neg hlt]
    have hne : q ≠ [] := by
      intro e; rw [e] at hql; simp at hql; omega
    obtain ⟨i, w, a, e, ha, hw, hmin⟩ := minIdx_spec q hne
    simp only [e]
    have hil : i < q.length := (List.getElem?_eq_some_iff.mp ha).1
    by_cases hc : w < new.2
    · rw [if_pos hc]
      refine ⟨q.eraseIdx i ++ [new], [a], rfl, ?_, ?_, ?_⟩
      · have := perm_eraseIdx q i a ha
        have h2 : (q.eraseIdx i ++ [new] ++ [a]).Perm (a :: (q.eraseIdx i ++ [new])) :=
          List.perm_append_comm
        refine h2.trans ?_
        rw [← List.cons_append]
        exact (this.symm).append_right [new]
      · rw [List.length_append, List.length_eraseIdx_of_lt hil, List.length_singleton]; omega
      · intro d hd b hb
        rw [List.mem_singleton] at hd
        subst hd
        rw [hw]
        rcases List.mem_append.mp hb with h | h
        · exact hmin b (List.mem_of_mem_eraseIdx h)
        · rw [List.mem_singleton.mp h]; exact le_of_lt hc
    · rw [if_neg hc]
      refine ⟨q, [new], rfl, List.Perm.refl _, by omega, ?_⟩
      intro d hd b hb
      rw [List.mem_singleton] at hd
      subst hd
      exact le_trans (not_lt.mp hc) (hmin b hb)

/-- Specification of the stream: the pool after complete chunks `cs`. -/
def poolAfter (kept : Nat) (E : Ext S M) (cs : List (List S)) : Except PyErr (List (M × ℚ)) :=
  cs.foldlM (fun pool c => updatePool kept (E.weightOld c) (E.train c, E.weightNew c) pool) []

theorem fit_step (w kept : Nat) (E : Ext S M) (x : S) (xs : List S) (s : St S M) :
    fit w kept E s (xs ++ [x]) = (fit w kept E s xs).bind fun s => fitOne w kept E s x := by
  rw [fit, List.foldlM_append]
  simp only [fit, bind, List.foldlM_cons, List.foldlM_nil, pure, Except.pure]
  cases List.foldlM (fitOne w kept E) s xs with
  | error e => rfl
  | ok s => simp only [Except.bind]; cases fitOne w kept E s x <;> rfl

/-- C73: the pool is a function of the consecutive complete chunks of `w` samples; however
the samples are spread over `partial_fit` calls and whatever was in the chunk array, each
chunk is used once, in order, and the rest of the samples wait in the array. -/
theorem C73_chunks (w kept : Nat) (hw : 0 < w) (hk : 0 < kept) (E : Ext S M) (buf : List S) (hb : buf.length = w)
    (cs : List (List S)) (hcs : ∀ c ∈ cs, c.length = w) (tail : List S) (ht : tail.length < w) :
    ∃ pool buf', poolAfter kept E cs = .ok pool ∧ pool.length = min kept cs.length ∧
      fit w kept E ⟨0, buf, []⟩ (cs.flatten ++ tail) = .ok ⟨tail.length, buf', pool⟩ ∧
      buf'.length = w ∧ buf'.take tail.length = tail := by
  have fill : ∀ (tail : List S) (buf : List S) (pool : List (M × ℚ)), buf.length = w → tail.length < w →
      ∃ buf', fit w kept E ⟨0, buf, pool⟩ tail = .ok ⟨tail.length, buf', pool⟩ ∧ buf'.length = w ∧
        buf'.take tail.length = tail := by
    intro tail
    induction tail using List.reverseRecOn with
    | nil => intro buf pool hb _; exact ⟨buf, rfl, hb, by simp⟩
    | append_singleton l x ih =>
      intro buf pool hb hl
      simp only [List.length_append, List.length_singleton] at hl
      obtain ⟨buf', e, hb', ht'⟩ := ih buf pool hb (by omega)
      refine ⟨buf'.set l.length x, ?_, by simpa using hb', ?_⟩
      · rw [fit_step, e]
        simp only [Except.bind, fitOne]
        rw [if_neg (by omega)]
        simp
      · simp only [List.length_append, List.length_singleton]
        rw [List.take_add_one, List.take_set_of_le (le_refl _), ht', List.getElem?_set_self (by omega)]
        rfl
  have append : ∀ (xs ys : List S) (s s' : St S M), fit w kept E s xs = .ok s' →
      fit w kept E s (xs ++ ys) = fit w kept E s' ys := by
    intro xs ys s s' h
    rw [fit, List.foldlM_append]
    rw [fit] at h
    rw [h]; rfl
  have chunk : ∀ (c : List S) (buf : List S) (pool pool' : List (M × ℚ)), buf.length = w → c.length = w →
      updatePool kept (E.weightOld c) (E.train c, E.weightNew c) pool = .ok pool' →
      fit w kept E ⟨0, buf, pool⟩ c = .ok ⟨0, c, pool'⟩ := by
    intro c buf pool pool' hb hc hu
    rcases List.eq_nil_or_concat c with h | ⟨l, x, h⟩
    · subst h; simp at hc; omega
    · rw [List.concat_eq_append] at h
      subst h
      simp only [List.length_append, List.length_singleton] at hc
      obtain ⟨buf', e, hb', ht'⟩ := fill l buf pool hb (by omega)
      have hset : buf'.set l.length x = l ++ [x] := by
        apply List.ext_getElem?
        intro i
        by_cases hi : i < l.length
        · rw [List.getElem?_set_ne (by omega), List.getElem?_append_left hi, ← ht']
          rw [List.getElem?_take_of_lt (by simpa [ht'] using hi)]
        · by_cases hi2 : i = l.length
          · subst hi2
            rw [List.getElem?_set_self (by omega)]; simp
          · rw [List.getElem?_eq_none (by simp; omega), List.getElem?_eq_none (by simp; omega)]
      rw [fit_step, e]
      simp only [Except.bind, fitOne]
      rw [if_pos hc, hset, hu]
  have main : ∀ cs : List (List S), (∀ c ∈ cs, c.length = w) → ∃ pool buf', poolAfter kept E cs = .ok pool ∧
      pool.length = min kept cs.length ∧ buf'.length = w ∧
      fit w kept E ⟨0, buf, []⟩ cs.flatten = .ok ⟨0, buf', pool⟩ := by
    intro cs
    induction cs using List.reverseRecOn with
    | nil => intro _; exact ⟨[], buf, rfl, by simp, hb, rfl⟩
    | append_singleton cs c ih =>
      intro h
      obtain ⟨pool, buf', e1, e2, e3, e4⟩ := ih fun c hc => h c (by simp [hc])
      obtain ⟨pool', _, u1, _, u3, _⟩ := C73_keeps_best kept hk (E.weightOld c) (E.train c, E.weightNew c) pool
        (by omega)
      refine ⟨pool', c, ?_, ?_, h c (by simp), ?_⟩
      · rw [poolAfter, List.foldlM_append]
        rw [poolAfter] at e1
        rw [e1]
        simp only [bind, Except.bind, List.foldlM_cons, List.foldlM_nil, u1, pure, Except.pure]
      · rw [u3, e2]; simp only [List.length_append, List.length_singleton]; omega
      · rw [List.flatten_append, List.flatten_singleton, append _ _ _ _ e4]
        exact chunk c buf' pool pool' e3 (h c (by simp)) u1
  obtain ⟨pool, buf1, e1, e2, e3, e4⟩ := main cs hcs
  obtain ⟨buf', f1, f2, f3⟩ := fill tail buf1 pool e3 ht
  exact ⟨pool, buf', e1, e2, by rw [append _ _ _ _ e4, f1], f2, f3⟩

/-- A full pool of two: chunks of two samples, a model is the sum of its chunk and weighs the
same as its value modulo three. -/
example : (match fit 2 2 ⟨fun c => c.sum, fun c => (c.sum % 3 : Nat), fun _ m => (m % 3 : Nat)⟩
    ⟨0, [0, 0], []⟩ [1, 1, 2, 2, 3, 2, 9] with
    | .ok s => some (s.p, s.pool)
    | .error _ => none) = some (1, [((2 : Nat), (2 : ℚ)), (5, 2)]) := by decide +kernel

/-- C73: a model's weight is between 0 and the baseline (when the probabilities lie in
[0,1]); a model no better than random guessing gets weight 0, a better one a positive
weight, and smaller error never gives smaller weight. -/
theorem C73_weights (base : ℚ) (hb : 0 ≤ base) (ps qs : List (Option ℚ)) :
    0 ≤ weight base (score ps) ∧ weight base (score ps) ≤ base ∧
    (weight base (score ps) = 0 ↔ base ≤ score ps) ∧
    (score ps ≤ score qs → weight base (score qs) ≤ weight base (score ps)) := by
  have h0 : 0 ≤ score ps := by
    apply div_nonneg
    · apply List.sum_nonneg
      intro a ha
      obtain ⟨o, _, rfl⟩ := List.mem_map.mp ha
      cases o with
      | none => exact zero_le_one
      | some p => exact mul_self_nonneg _
    · exact Nat.cast_nonneg _
  refine ⟨le_max_left _ _, max_le hb (by linarith), ?_, ?_⟩
  · simp only [weight]
    constructor
    · intro h
      have := le_max_right 0 (base - score ps)
      rw [h] at this; linarith
    · intro h; exact max_eq_left (by linarith)
  · intro h
    exact max_le_max (le_refl _) (by linarith)

/-- C73: the baseline is the mean squared error, over the chunk's samples, of the model that
gives every label its frequency in the chunk. -/
theorem C73_baseline_is_random_guessing (y : List Int) :
    baseline y = score (y.map fun c => some ((y.count c : ℚ) / y.length)) := by
  have h : ∀ g : Int → ℚ, (y.map g).sum = (y.dedup.map fun c => (y.count c : ℚ) * g c).sum := by
    intro g
    rw [Finset.sum_list_map_count, ← List.sum_toFinset _ (List.nodup_dedup y)]
    have : y.dedup.toFinset = y.toFinset := by ext a; simp
    rw [this]
    apply Finset.sum_congr rfl
    intro c _
    rw [nsmul_eq_mul]
  have e : score (y.map fun c => some ((y.count c : ℚ) / y.length)) =
      (y.map fun c => (1 - (y.count c : ℚ) / y.length) * (1 - (y.count c : ℚ) / y.length)).sum / y.length := by
    simp only [score, List.map_map, List.length_map]
    rfl
  rw [e, h, baseline, div_eq_mul_inv, ← List.sum_map_mul_right]
  congr 1
  apply List.map_congr_left
  intro c _
  simp only
  ring

theorem baseline_nonneg (y : List Int) : 0 ≤ baseline y := by
  apply List.sum_nonneg
  intro a ha
  obtain ⟨c, _, rfl⟩ := List.mem_map.mp ha
  have h1 : 0 ≤ (y.count c : ℚ) / y.length := div_nonneg (Nat.cast_nonneg _) (Nat.cast_nonneg _)
  simp only
  rw [mul_assoc]
  exact mul_nonneg h1 (mul_self_nonneg _)

example : baseline [0, 1, 1, 1] = 3/16 ∧ score [some (3/4), none, some 1, some 1] = 17/64 ∧
    weight (3/16) (1/16) = 1/8 := by decide +kernel

end Verif.Meta.AWE
