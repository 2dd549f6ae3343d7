import Verif.Common
import Mathlib.Data.List.Sort
import Mathlib.Data.List.Range
import Mathlib.Data.List.Induction
import Mathlib.Data.List.Forall2
import Mathlib.Algebra.Order.BigOperators.Group.List

/-!
Models of `meta/classifier_chains.py` and `meta/regressor_chains.py`; C44, C74, C75, C76.

Simplifications: base learners are arbitrary (`fit` from a training table, row-wise
prediction); the shuffled chain is an arbitrary permutation; labels are rationals for the
plain chains and booleans (0/1) for the probabilistic ones.
-/

namespace Verif.Meta.Chains

variable {σ : Type}

/-- `np.argsort` (positions in the order of their values). -/
def argsort (l : List Nat) : List Nat :=
  (List.range l.length).insertionSort fun i j => l.getD i 0 ≤ l.getD j 0

/-- Column selection `y[:, idx]` on one row. -/
def cols {α : Type} (d : α) (row : List α) (idx : List Nat) : List α := idx.map fun i => row.getD i d

/-- A base learner: training from a table of rows and targets, prediction of one row. -/
structure Base (σ : Type) where
  fit : List (List ℚ × ℚ) → σ
  partialFit : σ → List (List ℚ × ℚ) → σ
  predict : σ → List ℚ → ℚ

/-- The training table of chain member `j`, classifier_chains.py 133-141 / 174-180 and
regressor_chains.py 105-113 / 144-150: `XY[:, 0:D + j]` against `y[:, j]`, with `y` in
chain order. -/
def table (chain : List Nat) (data : List (List ℚ × List ℚ)) (j : Nat) : List (List ℚ × ℚ) :=
  data.map fun r =>
    let y := cols 0 r.2 chain
    ((r.1 ++ y.take (chain.length - 1)).take (r.1.length + j), y.getD j 0)

/-- `fit`. -/
def fit (B : Base σ) (chain : List Nat) (data : List (List ℚ × List ℚ)) : List σ :=
  (List.range chain.length).map fun j => B.fit (table chain data j)

/-- `partial_fit` on a fitted chain. -/
def partialFit (B : Base σ) (chain : List Nat) (ens : List σ) (data : List (List ℚ × List ℚ)) : List σ :=
  ((List.range chain.length).zip ens).map fun p => B.partialFit p.2 (table chain data p.1)

/-- The loop of `predict` / `predict_proba` for one row (lines 197-202, 231-236): state is
the extended row and the outputs so far. -/
def chainLoop (pred : σ → List ℚ → ℚ) (ens : List σ) (x : List ℚ) : List ℚ × List ℚ :=
  ens.foldl (fun st m =>
    let x := if st.2.length > 0 then st.1 ++ [st.2.getD (st.2.length - 1) 0] else st.1
    (x, st.2 ++ [pred m x])) (x, [])

/-- `predict` for one row, lines 184-205. -/
def predict (B : Base σ) (chain : List Nat) (ens : List σ) (x : List ℚ) : List ℚ :=
  cols 0 (chainLoop B.predict ens x).2 (argsort chain)

/-- `predict_proba` for one row, lines 207-237: no reordering. -/
def predictProba (prob1 : σ → List ℚ → ℚ) (ens : List σ) (x : List ℚ) : List ℚ :=
  (chainLoop prob1 ens x).2

/-! ### Specification and proofs -/

theorem argsort_spec (chain : List Nat) (L : Nat) (h : chain.Perm (List.range L)) :
    (argsort chain).map (fun i => chain.getD i 0) = List.range L ∧ (argsort chain).length = L ∧
      ∀ i ∈ argsort chain, i < L := by
  have hlen : chain.length = L := by rw [h.length_eq, List.length_range]
  have hp : (argsort chain).Perm (List.range chain.length) := List.perm_insertionSort _ _
  have hmap : (List.range chain.length).map (fun i => chain.getD i 0) = chain := by
    apply List.ext_getElem?
    intro i
    by_cases hi : i < chain.length
    · simp [List.getElem?_map, List.getElem?_range hi, List.getD_eq_getElem?_getD, List.getElem?_eq_getElem hi]
    · rw [List.getElem?_eq_none (by simp; omega), List.getElem?_eq_none (by omega)]
  have hperm : ((argsort chain).map fun i => chain.getD i 0).Perm (List.range L) := by
    have := hp.map fun i => chain.getD i 0
    rw [hmap] at this
    exact this.trans h
  refine ⟨?_, by rw [hp.length_eq, List.length_range, hlen], ?_⟩
  · haveI : Std.Total (fun i j : Nat => chain.getD i 0 ≤ chain.getD j 0) := ⟨fun a b => le_total _ _⟩
    haveI : IsTrans Nat (fun i j : Nat => chain.getD i 0 ≤ chain.getD j 0) := ⟨fun a b c h1 h2 => le_trans h1 h2⟩
    have hs : (argsort chain).Pairwise fun i j => chain.getD i 0 ≤ chain.getD j 0 :=
      List.pairwise_insertionSort _ _
    have hs2 : ((argsort chain).map fun i => chain.getD i 0).Pairwise (· ≤ ·) := by
      rw [List.pairwise_map]; exact hs
    have hs3 : (List.range L).Pairwise (· ≤ ·) := List.pairwise_lt_range.imp le_of_lt
    exact hperm.eq_of_pairwise (fun a b _ _ h1 h2 => le_antisymm h1 h2) hs2 hs3
  · intro i hi
    have := hp.mem_iff.mp hi
    rw [List.mem_range] at this; omega

theorem chainLoop_spec (pred : σ → List ℚ → ℚ) (ens : List σ) (x : List ℚ) :
    (chainLoop pred ens x).2.length = ens.length ∧
    (chainLoop pred ens x).1 = x ++ (chainLoop pred ens x).2.take (ens.length - 1) ∧
    ∀ j m, ens[j]? = some m →
      (chainLoop pred ens x).2[j]? = some (pred m (x ++ (chainLoop pred ens x).2.take j)) := by
  induction ens using List.reverseRecOn with
  | nil => simp [chainLoop]
  | append_singleton ens m ih =>
    obtain ⟨h1, h2, h3⟩ := ih
    have e : chainLoop pred (ens ++ [m]) x =
        (let st := chainLoop pred ens x
         let x := if st.2.length > 0 then st.1 ++ [st.2.getD (st.2.length - 1) 0] else st.1
         (x, st.2 ++ [pred m x])) := by
      unfold chainLoop
      rw [List.foldl_append]
      rfl
    rw [e]
    set st := chainLoop pred ens x with hst
    have hx : (if st.2.length > 0 then st.1 ++ [st.2.getD (st.2.length - 1) 0] else st.1) = x ++ st.2 := by
      split_ifs with hc
      · rw [h2, List.append_assoc]
        congr 1
        rw [← h1]
        conv_rhs => rw [← List.take_append_drop (st.2.length - 1) st.2]
        congr 1
        rw [List.getD_eq_getElem?_getD, List.getElem?_eq_getElem (by omega)]
        rw [List.drop_eq_getElem_cons (by omega)]
        simp only [Option.getD_some]
        rw [List.drop_eq_nil_of_le (by omega)]
      · have : st.2 = [] := List.length_eq_zero_iff.mp (by omega)
        rw [h2, this]; simp
    simp only [hx]
    refine ⟨by simp [h1], ?_, ?_⟩
    · simp only [List.length_append, List.length_singleton, Nat.add_sub_cancel]
      rw [← h1, List.take_left]
    · intro j m' hj
      by_cases hlt : j < ens.length
      · rw [List.getElem?_append_left hlt] at hj
        rw [List.getElem?_append_left (by omega), h3 j m' hj, List.take_append_of_le_length (by omega)]
      · have hj' : j = ens.length := by
          have := (List.getElem?_eq_some_iff.mp hj).1
          simp at this; omega
        subst hj'
        simp only [List.getElem?_concat_length, Option.some.injEq] at hj
        subst hj
        rw [← h1, List.getElem?_concat_length, List.take_left]

/-- C44, training: chain member `j` is trained on the target `chain[j]`, seeing for every
sample exactly the features followed by the true values of the targets that precede it in
the chain. -/
theorem C44_training_tables (B : Base σ) (chain : List Nat) (data : List (List ℚ × List ℚ)) (j k : Nat)
    (hj : chain[j]? = some k) :
    (fit B chain data)[j]? = some (B.fit (data.map fun r =>
      (r.1 ++ (chain.take j).map (fun t => r.2.getD t 0), r.2.getD k 0))) ∧
    ∀ ens m, ens[j]? = some m → (partialFit B chain ens data)[j]? = some (B.partialFit m (data.map fun r =>
      (r.1 ++ (chain.take j).map (fun t => r.2.getD t 0), r.2.getD k 0))) := by
  have hlt : j < chain.length := (List.getElem?_eq_some_iff.mp hj).1
  have htab : table chain data j = data.map fun r =>
      (r.1 ++ (chain.take j).map (fun t => r.2.getD t 0), r.2.getD k 0) := by
    unfold table
    apply List.map_congr_left
    intro r _
    simp only [cols, Prod.mk.injEq]
    constructor
    · rw [List.take_append, List.take_of_length_le (by omega), Nat.add_sub_cancel_left, List.take_take,
        Nat.min_eq_left (by omega), List.map_take]
    · rw [List.getD_eq_getElem?_getD, List.getElem?_map, hj]; rfl
  constructor
  · rw [fit, List.getElem?_map, List.getElem?_range hlt]
    simp [htab]
  · intro ens m hm
    rw [partialFit, List.getElem?_map]
    have : ((List.range chain.length).zip ens)[j]? = some (j, m) := by
      rw [List.getElem?_zip_eq_some]
      exact ⟨List.getElem?_range hlt, hm⟩
    rw [this]
    simp [htab]

/-- C44, prediction: for every chain order the result has one column per target, and the
column of target `chain[j]` is the prediction of member `j`, given the features followed by
the result columns of the targets that precede it in the chain. -/
theorem C44_columns_in_target_order (B : Base σ) (chain : List Nat) (L : Nat) (hc : chain.Perm (List.range L))
    (ens : List σ) (hens : ens.length = L) (x : List ℚ) :
    (predict B chain ens x).length = L ∧
    ∀ j k m, chain[j]? = some k → ens[j]? = some m →
      (predict B chain ens x)[k]? =
        some (B.predict m (x ++ (chain.take j).map fun t => (predict B chain ens x).getD t 0)) := by
  obtain ⟨a1, a2, a3⟩ := argsort_spec chain L hc
  obtain ⟨h1, _, h3⟩ := chainLoop_spec B.predict ens x
  set Y := (chainLoop B.predict ens x).2 with hY
  have hlen : chain.length = L := by rw [hc.length_eq, List.length_range]
  have hnd : chain.Nodup := hc.nodup_iff.mpr List.nodup_range
  have hcol : ∀ j k, chain[j]? = some k → (predict B chain ens x)[k]? = some (Y.getD j 0) := by
    intro j k hjk
    have hk : k < L := by
      have := hc.mem_iff.mp (List.mem_of_getElem? hjk)
      exact List.mem_range.mp this
    have hjl : j < chain.length := (List.getElem?_eq_some_iff.mp hjk).1
    have e1 : ((argsort chain).map fun i => chain.getD i 0)[k]? = some k := by
      rw [a1]; exact List.getElem?_range hk
    rw [List.getElem?_map] at e1
    cases e2 : (argsort chain)[k]? with
    | none => rw [e2] at e1; cases e1
    | some i =>
      rw [e2] at e1
      simp only [Option.map_some, Option.some.injEq] at e1
      have hi : i < chain.length := by have := a3 i (List.mem_of_getElem? e2); omega
      have hij : i = j := by
        have h4 : chain[i]? = some k := by
          rw [List.getD_eq_getElem?_getD, List.getElem?_eq_getElem hi] at e1
          rw [List.getElem?_eq_getElem hi]; simpa using e1
        rw [List.getElem?_eq_getElem hi, Option.some.injEq] at h4
        rw [List.getElem?_eq_getElem hjl, Option.some.injEq] at hjk
        exact (hnd.getElem_inj_iff).mp (h4.trans hjk.symm)
      rw [predict, ← hY, cols, List.getElem?_map, e2, hij]; rfl
  refine ⟨by rw [predict, cols, List.length_map, a2], ?_⟩
  intro j k m hjk hm
  rw [hcol j k hjk, List.getD_eq_getElem?_getD, h3 j m hm]
  simp only [Option.getD_some, Option.some.injEq]
  congr 2
  have hjl : j < chain.length := (List.getElem?_eq_some_iff.mp hjk).1
  apply List.ext_getElem?
  intro i
  by_cases hi : i < j
  · rw [List.getElem?_take_of_lt hi, List.getElem?_map, List.getElem?_take_of_lt hi,
      List.getElem?_eq_getElem (by omega), List.getElem?_eq_getElem (l := chain) (by omega)]
    simp only [Option.map_some, Option.some.injEq]
    rw [List.getD_eq_getElem?_getD, hcol i _ (List.getElem?_eq_getElem (by omega)),
      List.getD_eq_getElem?_getD, List.getElem?_eq_getElem (by omega)]
    rfl
  · rw [List.getElem?_eq_none (by simp; omega), List.getElem?_eq_none (by simp; omega)]

/-- A learner that remembers its training table and predicts the first training target plus
the length of the row: three targets in the order 2, 0, 1. -/
def demo : Base (List (List ℚ × ℚ)) :=
  ⟨id, fun a b => a ++ b, fun m r => ((m.map Prod.snd).headD 0) + r.length⟩

example : predict demo [2, 0, 1] (fit demo [2, 0, 1] [([5], [10, 20, 30])]) [7] = [12, 23, 31] ∧
    (fit demo [2, 0, 1] [([5], [10, 20, 30])])[1]? = some [([5, 30], 10)] := by decide +kernel

/-- C74 (violated): with any order other than the identity there are base learners and a row
for which `predict_proba` puts the probability of some target in another target's column:
column `j` belongs to target `chain[j]`.  General form: the columns of `predict_proba` are in
chain order. -/
theorem C74_proba_columns_permuted_violated (chain : List Nat) (L : Nat) (hc : chain.Perm (List.range L))
    (j k : Nat) (hjk : chain[j]? = some k) (hne : j ≠ k) :
    ∃ (B : Base ℚ) (prob1 : ℚ → List ℚ → ℚ) (data : List (List ℚ × List ℚ)),
      (∀ m x, 0 ≤ prob1 m x ∧ prob1 m x ≤ 1) ∧
      (∀ m x, prob1 m x = B.predict m x) ∧
      (predictProba prob1 (fit B chain data) [])[j]? = some 1 ∧
      (predict B chain (fit B chain data) [])[k]? = some 1 ∧
      (predict B chain (fit B chain data) [])[j]? = some 0 := by
  let clip : ℚ → ℚ := fun m => if m = 1 then 1 else 0
  let B : Base ℚ := ⟨fun t => (t.map Prod.snd).headD 0, fun a _ => a, fun m _ => clip m⟩
  let y : List ℚ := (List.range L).map fun t => if t = k then 1 else 0
  have hlen : chain.length = L := by rw [hc.length_eq, List.length_range]
  have hjl : j < chain.length := (List.getElem?_eq_some_iff.mp hjk).1
  have hk : k < L := List.mem_range.mp (hc.mem_iff.mp (List.mem_of_getElem? hjk))
  have hnd : chain.Nodup := hc.nodup_iff.mpr List.nodup_range
  have hy : ∀ t, t < L → y.getD t 0 = if t = k then 1 else 0 := by
    intro t ht
    simp [y, List.getD_eq_getElem?_getD, List.getElem?_map, List.getElem?_range ht]
  have hfit : ∀ i t : Nat, chain[i]? = some t → (fit B chain [([], y)])[i]? = some (if t = k then 1 else 0) := by
    intro i t hit
    have ht : t < L := List.mem_range.mp (hc.mem_iff.mp (List.mem_of_getElem? hit))
    rw [(C44_training_tables B chain [([], y)] i t hit).1]
    show some (y.getD t 0) = _
    rw [hy t ht]
  have hfl : (fit B chain [([], y)]).length = L := by simp [fit, hlen]
  obtain ⟨_, p2⟩ := C44_columns_in_target_order B chain L hc (fit B chain [([], y)]) hfl []
  have hpred : ∀ t, t < L → (predict B chain (fit B chain [([], y)]) [])[t]? = some (if t = k then 1 else 0) := by
    intro t ht
    obtain ⟨i, hi⟩ := List.mem_iff_getElem?.mp (hc.mem_iff.mpr (List.mem_range.mpr ht))
    rw [p2 i t _ hi (hfit i t hi)]
    simp only [B, clip, Option.some.injEq]
    split_ifs <;> simp_all
  refine ⟨B, fun m _ => clip m, [([], y)], ?_, fun m x => rfl, ?_, ?_, ?_⟩
  · intro m _
    simp only [clip]
    split_ifs <;> norm_num
  · obtain ⟨_, _, h3⟩ := chainLoop_spec (fun (m : ℚ) (_ : List ℚ) => clip m) (fit B chain [([], y)]) []
    rw [predictProba, h3 j _ (hfit j k hjk)]
    simp [clip]
  · rw [hpred k hk]; simp
  · rw [hpred j (by omega), if_neg hne]

example : ([1, 0] : List Nat).Perm (List.range 2) ∧ ([1, 0] : List Nat)[0]? = some 1 := by decide +kernel

/-- C74 (what holds): with the default order the column of target `j` is the probability
given by member `j`, fed the features and the probabilities of the preceding targets. -/
theorem C74_default_order_partial (prob1 : σ → List ℚ → ℚ) (ens : List σ) (x : List ℚ) :
    (predictProba prob1 ens x).length = ens.length ∧
    ∀ j m, ens[j]? = some m →
      (predictProba prob1 ens x)[j]? = some (prob1 m (x ++ (predictProba prob1 ens x).take j)) := by
  obtain ⟨h1, _, h3⟩ := chainLoop_spec prob1 ens x
  exact ⟨h1, h3⟩

example : predictProba (fun (m : ℚ) r => m * (1 - r.sum)) [1/2, 1/2] [0] = [1/2, 1/4] := by decide +kernel

/-! ### Probabilistic chains -/

/-- Label as a number in the extended row. -/
def num (b : Bool) : ℚ := if b then 1 else 0

/-- `P`, lines 248-275, with the default payoff: product over the chain of the probability
of label `j` given the features and the labels before. -/
def jointProb (prob : σ → List ℚ → Bool → ℚ) (ens : List σ) (x : List ℚ) (y : List Bool) : ℚ :=
  ((List.range y.length).map fun j => match ens[j]?, y[j]? with
    | some m, some b => prob m (x ++ (y.take j).map num) b
    | _, _ => 0).prod

/-- `np.binary_repr(b, width=L)` as bits, line 353. -/
def bits (L b : Nat) : List Bool := (List.range L).map fun i => b.testBit (L - 1 - i)

/-- The comparison `if w_ > w_max: keep`, lines 355-359 and 493-498. -/
def keepBest (f : List Bool → ℚ) (init : List Bool × ℚ) (cands : List (List Bool)) : List Bool × ℚ :=
  cands.foldl (fun st y => if st.2 < f y then (y, f y) else st) init

/-- `ProbabilisticClassifierChain.predict` for one row, lines 344-361. -/
def pccPredict (prob : σ → List ℚ → Bool → ℚ) (ens : List σ) (x : List ℚ) : List Bool :=
  (keepBest (jointProb prob ens x) (List.replicate ens.length false, 0)
    ((List.range (2 ^ ens.length)).map (bits ens.length))).1

/-- `MonteCarloClassifierChain.predict` for one row, lines 487-500: start from the greedy
chain prediction, then try the sampled vectors. -/
def mccPredict (prob : σ → List ℚ → Bool → ℚ) (ens : List σ) (x : List ℚ) (greedy : List Bool)
    (samples : List (List Bool)) : List Bool :=
  (keepBest (jointProb prob ens x) (greedy, jointProb prob ens x greedy) samples).1

theorem bits_surj (v : List Bool) : ∃ b, b < 2 ^ v.length ∧ bits v.length b = v := by
  induction v with
  | nil => exact ⟨0, by simp, rfl⟩
  | cons c v ih =>
    obtain ⟨b, hb, e⟩ := ih
    have key : ∀ b', b' < 2 ^ (v.length + 1) → b'.testBit v.length = c →
        (∀ i, i < v.length → b'.testBit i = b.testBit i) → bits (v.length + 1) b' = c :: v := by
      intro b' _ h1 h2
      rw [bits, List.range_succ_eq_map, List.map_cons, List.map_map]
      simp only [Nat.add_sub_cancel, Nat.sub_zero, h1]
      congr 1
      conv_rhs => rw [← e]
      apply List.map_congr_left
      intro i hi
      rw [List.mem_range] at hi
      simp only [Function.comp]
      have : v.length - (i + 1) = v.length - 1 - i := by omega
      rw [Nat.succ_eq_add_one, this]
      exact h2 _ (by omega)
    cases c with
    | false =>
      refine ⟨b, by simp only [List.length_cons, Nat.pow_succ]; omega, ?_⟩
      refine key b (by rw [Nat.pow_succ]; omega) (Nat.testBit_lt_two_pow hb) (fun _ _ => rfl)
    | true =>
      refine ⟨2 ^ v.length + b, by simp only [List.length_cons, Nat.pow_succ]; omega, ?_⟩
      refine key _ (by rw [Nat.pow_succ]; omega) ?_ ?_
      · rw [Nat.testBit_two_pow_add_eq, Nat.testBit_lt_two_pow hb]; rfl
      · intro i hi
        exact Nat.testBit_two_pow_add_gt hi b

theorem keepBest_spec (f : List Bool → ℚ) (cands : List (List Bool)) (init : List Bool × ℚ) :
    let r := keepBest f init cands
    init.2 ≤ r.2 ∧ (∀ y ∈ cands, f y ≤ r.2) ∧ (r = init ∨ (r.1 ∈ cands ∧ r.2 = f r.1)) := by
  induction cands generalizing init with
  | nil => simp [keepBest]
  | cons a cands ih =>
    have e : keepBest f init (a :: cands) = keepBest f (if init.2 < f a then (a, f a) else init) cands := rfl
    simp only
    rw [e]
    by_cases hc : init.2 < f a
    · rw [if_pos hc]
      obtain ⟨h1, h2, h3⟩ := ih (a, f a)
      refine ⟨le_trans (le_of_lt hc) h1, ?_, ?_⟩
      · intro y hy
        rcases List.mem_cons.mp hy with rfl | hy
        · exact h1
        · exact h2 y hy
      · rcases h3 with h3 | ⟨h3, h4⟩
        · right; rw [h3]; exact ⟨by simp, rfl⟩
        · exact .inr ⟨by simp [h3], h4⟩
    · rw [if_neg hc]
      obtain ⟨h1, h2, h3⟩ := ih init
      refine ⟨h1, ?_, ?_⟩
      · intro y hy
        rcases List.mem_cons.mp hy with rfl | hy
        · exact le_trans (not_lt.mp hc) h1
        · exact h2 y hy
      · rcases h3 with h3 | ⟨h3, h4⟩
        · exact .inl h3
        · exact .inr ⟨by simp [h3], h4⟩

theorem jointProb_nonneg (prob : σ → List ℚ → Bool → ℚ) (hp : ∀ m x b, 0 ≤ prob m x b) (ens : List σ)
    (x : List ℚ) (y : List Bool) : 0 ≤ jointProb prob ens x y := by
  have hprod : ∀ l : List ℚ, (∀ a ∈ l, 0 ≤ a) → 0 ≤ l.prod := by
    intro l
    induction l with
    | nil => intro _; simp
    | cons a l ih =>
      intro h
      rw [List.prod_cons]
      exact mul_nonneg (h a (by simp)) (ih fun b hb => h b (by simp [hb]))
  apply hprod
  intro a ha
  obtain ⟨j, _, rfl⟩ := List.mem_map.mp ha
  split
  · exact hp _ _ _
  · exact le_refl _

/-- C75: with non-negative member probabilities the vector returned by the probabilistic
chain is a most probable one among all label vectors (one label per chain member, in chain
order). -/
theorem C75_most_probable (prob : σ → List ℚ → Bool → ℚ) (hp : ∀ m x b, 0 ≤ prob m x b) (ens : List σ)
    (x : List ℚ) :
    (pccPredict prob ens x).length = ens.length ∧
    ∀ y : List Bool, y.length = ens.length → jointProb prob ens x y ≤ jointProb prob ens x (pccPredict prob ens x) := by
  obtain ⟨h1, h2, h3⟩ := keepBest_spec (jointProb prob ens x)
    ((List.range (2 ^ ens.length)).map (bits ens.length)) (List.replicate ens.length false, 0)
  have hall : ∀ y : List Bool, y.length = ens.length →
      y ∈ (List.range (2 ^ ens.length)).map (bits ens.length) := by
    intro y hy
    obtain ⟨b, hb, e⟩ := bits_surj y
    rw [List.mem_map]
    exact ⟨b, List.mem_range.mpr (hy ▸ hb), hy ▸ e⟩
  unfold pccPredict
  rcases h3 with h3 | ⟨h3, h4⟩
  · rw [h3]
    refine ⟨by simp, ?_⟩
    intro y hy
    have := h2 y (hall y hy)
    rw [h3] at this
    exact le_trans this (jointProb_nonneg prob hp ens x _)
  · refine ⟨?_, ?_⟩
    · obtain ⟨b, _, e⟩ := List.mem_map.mp h3
      rw [← e]; simp [bits]
    · intro y hy
      rw [← h4]
      exact h2 y (hall y hy)

/-- C75: with a non-default order the returned vector is not put back into target order:
two targets in the order 1, 0, where the member for target 1 is sure of label 1 and the
member for target 0 is sure of label 0, give the vector (1, 0). -/
theorem C75_order_not_undone_violated :
    ∃ (prob : Bool → List ℚ → Bool → ℚ) (chain : List Nat) (ens : List Bool),
      (∀ m x b, 0 ≤ prob m x b ∧ prob m x true + prob m x false = 1) ∧
      chain.Perm (List.range 2) ∧
      -- `ens[j]` is the model of target `chain[j]`; the model of target `t` is certain of label `t`
      (∀ j t : Nat, chain[j]? = some t → ∃ m, ens[j]? = some m ∧ ∀ x, prob m x (t == 1) = 1) ∧
      pccPredict prob ens [] = [true, false] := by
  refine ⟨fun m _ b => if m = b then 1 else 0, [1, 0], [true, false], ?_, by decide +kernel, ?_, by decide +kernel⟩
  · intro m _ b
    constructor
    · cases m <;> cases b <;> norm_num
    · cases m <;> norm_num
  · intro j t hj
    match j with
    | 0 => simp at hj; subst hj; exact ⟨true, rfl, by simp⟩
    | 1 => simp at hj; subst hj; exact ⟨false, rfl, by simp⟩
    | n + 2 => simp at hj

example : pccPredict (fun (m : ℚ) r b => if b then m / (1 + r.sum) else 1 - m / (1 + r.sum)) [3/5, 4/5] [0]
    = [true, false] := by decide +kernel

/-- C76: the Monte Carlo chain returns the greedy prediction or a sampled vector, and one
at least as probable as the greedy prediction and as every sampled vector. -/
theorem C76_never_worse_than_greedy (prob : σ → List ℚ → Bool → ℚ) (ens : List σ) (x : List ℚ)
    (greedy : List Bool) (samples : List (List Bool)) :
    mccPredict prob ens x greedy samples ∈ greedy :: samples ∧
    ∀ y ∈ greedy :: samples, jointProb prob ens x y ≤ jointProb prob ens x (mccPredict prob ens x greedy samples) := by
  obtain ⟨h1, h2, h3⟩ := keepBest_spec (jointProb prob ens x) samples (greedy, jointProb prob ens x greedy)
  unfold mccPredict
  have hval : (keepBest (jointProb prob ens x) (greedy, jointProb prob ens x greedy) samples).2 =
      jointProb prob ens x (keepBest (jointProb prob ens x) (greedy, jointProb prob ens x greedy) samples).1 := by
    rcases h3 with h3 | ⟨_, h3⟩
    · rw [h3]
    · exact h3
  constructor
  · rcases h3 with h3 | ⟨h3, _⟩
    · rw [h3]; simp
    · exact List.mem_cons_of_mem _ h3
  · intro y hy
    rw [← hval]
    rcases List.mem_cons.mp hy with rfl | hy
    · exact h1
    · exact h2 y hy

example : mccPredict (fun (m : ℚ) r b => if b then m / (1 + r.sum) else 1 - m / (1 + r.sum)) [3/5, 4/5] [0]
    [true, true] [[false, true], [true, true]] = [false, true] := by decide +kernel

end Verif.Meta.Chains
