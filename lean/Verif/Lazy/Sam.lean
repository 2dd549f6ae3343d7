import Verif.Common
import Mathlib.Data.List.Dedup
import Mathlib.Data.List.Sort
import Mathlib.Data.List.Perm.Subperm
import Mathlib.Data.Rat.Floor
import Mathlib.Algebra.Order.BigOperators.Group.List
import Mathlib.Data.List.Induction
import Mathlib.Algebra.BigOperators.Group.List.Lemmas
import Mathlib.Tactic.Linarith

/-!
Model of `SAMKNNClassifier` (`lazy/sam_knn.py`); C128, C129, C130.

The C++ library (distances, nearest indices, vote), the k-means centres and the choice
of the STM sizer are arbitrary parameters. The distance matrix `STMDistances` is only
modelled by its existence and size.
-/

namespace Verif.Lazy.Sam

/-- Samples with labels. -/
abbrev Mem (X : Type) := List (X × Int)

/-- Parameters, lines 105-157: `ltm` is `ltm_size * max_window_size`, `adapt` says that
`stm_size_option` is not `None`. -/
structure Cfg (X : Type) where
  k : Nat
  M : Nat
  ltm : ℚ
  useLtm : Bool
  adapt : Bool
  dist : X → X → ℚ
  near : Nat → List ℚ → List Nat
  vote : List ℚ → List Int → Nat → Int
  centre : List X → Nat → Nat → X

/-- The two memories and the three prediction histories (STM, LTM, both), which are
always extended and shortened together. -/
structure St (X : Type) where
  stm : Mem X
  ltm : Mem X
  hist : List (Bool × Bool × Bool)

variable {X : Type}

/-- Constructor. -/
def init : St X := ⟨[], [], []⟩

/-- `np.unique`. -/
def uniq (ls : List Int) : List Int := ls.dedup.insertionSort (· ≤ ·)

/-- `cluster_down`, lines 164-178. -/
def clusterDown (cfg : Cfg X) (m : Mem X) : Mem X :=
  (uniq (m.map Prod.snd)).flatMap fun l =>
    let s := (m.filter fun q => q.2 = l).map Prod.fst
    let n := max (s.length / 2) 1
    (List.range n).map fun i => (cfg.centre s n i, l)

/-- `size_check_fade_out` (180-207) and `size_check_STMLTM` (209-238). -/
def sizeCheck (cfg : Cfg X) (s : St X) : Except PyErr (St X) :=
  if cfg.useLtm then
    if s.stm.length + s.ltm.length > cfg.M then
      if (s.ltm.length : ℚ) > cfg.ltm then .ok { s with ltm := clusterDown cfg s.ltm }
      else
        let n := (⌊cfg.ltm - s.ltm.length + 1⌋).toNat
        if n > s.stm.length then .error .indexError
        else if !cfg.adapt then .error .attributeError
        else if n > s.hist.length then .error .indexError
        else .ok ⟨s.stm.drop n, clusterDown cfg (s.ltm ++ s.stm.take n), s.hist.drop n⟩
    else .ok s
  else if s.stm.length > cfg.M then
    if !cfg.adapt then .error .attributeError else .ok { s with stm := s.stm.drop 1 }
  else .ok s

/-- One round of the loop of `clean_samples`, lines 251-266. -/
def cleanOne (cfg : Cfg X) (stm cl : Mem X) (i : Nat) : Mem X :=
  match stm[i]? with
  | none => cl
  | some (x, y) =>
    let short := stm.eraseIdx i
    let good := (cfg.near cfg.k (short.map fun q => cfg.dist x q.1)).filterMap fun j =>
      short[j]?.bind fun q => if q.2 = y then some (cfg.dist x q.1) else none
    match good.max? with
    | none => cl
    | some thr =>
      let del := (cfg.near (min cl.length cfg.k) (cl.map fun q => cfg.dist x q.1)).filter fun j =>
        match cl[j]? with
        | some q => decide (q.2 ≠ y ∧ cfg.dist x q.1 ≤ thr)
        | none => false
      (cl.zipIdx.filter fun q => q.2 ∉ del).map Prod.fst

/-- `clean_samples`, lines 240-267. -/
def clean (cfg : Cfg X) (stm cl : Mem X) (onlyLast : Bool) : Mem X :=
  if stm.length > cfg.k ∧ cl.length > 0 then
    (if onlyLast then [stm.length - 1] else List.range stm.length).foldl (cleanOne cfg stm) cl
  else cl

/-- `np.int8(label)`. -/
def int8 (v : Int) : Int := (v + 128) % 256 - 128

/-- `getLabelsFct(distances, labels, k)[0]`, lines 464-490. -/
def ask (cfg : Cfg X) (x : X) (m : Mem X) (k : Nat) : Int :=
  cfg.vote (m.map fun q => cfg.dist x q.1) ((m.map Prod.snd).map int8) k

/-- The predictions of STM, LTM and both, lines 322-344 and 367-391. -/
def preds (cfg : Cfg X) (s : St X) (x : X) : Int × Int × Int :=
  if s.stm.length = 0 then (0, 0, 0)
  else if s.stm.length < cfg.k then (ask cfg x s.stm s.stm.length, 0, 0)
  else (ask cfg x s.stm cfg.k, if s.ltm.length ≥ cfg.k then ask cfg x s.ltm cfg.k else 0,
    ask cfg x (s.stm ++ s.ltm) cfg.k)

/-- Number of right predictions in a history. -/
def rights (h : List Bool) : Nat := h.count true

/-- `predict` for one row: `_predict_by_all_memories` (366-401), `_predict_by_stm` (406-414). -/
def predict (cfg : Cfg X) (s : St X) (x : X) : Int :=
  if cfg.useLtm then
    let (pS, pL, pC) := preds cfg s x
    if s.stm.length ≥ cfg.k ∧ s.stm.length ≠ 0 ∧ s.ltm.length ≥ cfg.k then
      let cS := rights (s.hist.map fun h => h.1)
      let cL := rights (s.hist.map fun h => h.2.1)
      let cC := rights (s.hist.map fun h => h.2.2)
      if cL ≤ cS ∧ cC ≤ cS then pS else if cC ≤ cL then pL else pC
    else pS
  else if s.stm.length > 0 then ask cfg x s.stm (min cfg.k s.stm.length) else 0

/-- `_partial_fit`, lines 269-317; `w` is the window size chosen by the sizer. -/
def step (cfg : Cfg X) (s : St X) (e : X × Int × Nat) : Except PyErr (St X) :=
  let (x, y, w) := e
  let p := preds cfg s x
  let hist := if cfg.useLtm then s.hist ++ [(p.1 == y, p.2.1 == y, p.2.2 == y)] else s.hist
  match sizeCheck cfg ⟨s.stm ++ [(x, y)], s.ltm, hist⟩ with
  | .error err => .error err
  | .ok s1 =>
    let s2 := { s1 with ltm := clean cfg s1.stm s1.ltm true }
    if !cfg.adapt then .ok s2
    else if s2.stm.length = 0 then .error .valueError
    else if s2.stm.length > cfg.M + 1 then .error .indexError
    else if w < s2.stm.length then
      let d := s2.stm.length - w
      if cfg.useLtm then
        if d > s2.hist.length then .error .indexError
        else sizeCheck cfg ⟨s2.stm.drop d, s2.ltm ++ clean cfg (s2.stm.drop d) (s2.stm.take d) false, s2.hist.drop d⟩
      else .ok { s2 with stm := s2.stm.drop d }
    else .ok s2

/-- Training on a stream. -/
def run (cfg : Cfg X) : List (X × Int × Nat) → St X → Except PyErr (St X)
  | [], s => .ok s
  | e :: es, s =>
    match step cfg s e with
    | .error err => .error err
    | .ok s' => run cfg es s'

/-! ### C128: sizes of the memories -/

theorem mem_uniq (ls : List Int) (l : Int) : l ∈ uniq ls ↔ l ∈ ls := by simp [uniq]

theorem nodup_uniq (ls : List Int) : (uniq ls).Nodup :=
  (List.perm_insertionSort _ _).nodup_iff.2 (List.nodup_dedup ls)

theorem length_clusterDown (cfg : Cfg X) (m : Mem X) :
    (clusterDown cfg m).length =
      ((uniq (m.map Prod.snd)).map fun l => max ((m.map Prod.snd).count l / 2) 1).sum := by
  unfold clusterDown
  rw [List.length_flatMap]
  congr 1
  apply List.map_congr_left
  intro l _
  rw [List.length_map, List.length_range, List.length_map, ← List.countP_eq_length_filter, List.count, List.countP_map]
  rfl

theorem sum_count_uniq (ls : List Int) : ((uniq ls).map fun l => ls.count l).sum = ls.length := by
  have h : ((uniq ls).map fun l => ls.count l).sum = (ls.dedup.map fun l => ls.count l).sum :=
    ((List.perm_insertionSort _ _).map _).sum_eq
  rw [h]
  exact List.sum_map_count_dedup_eq_length ls

/-- Halving every class shrinks a memory with more samples than classes. -/
theorem clusterDown_lt (cfg : Cfg X) (m : Mem X) (h : (uniq (m.map Prod.snd)).length < m.length) :
    (clusterDown cfg m).length < m.length := by
  rw [length_clusterDown]
  set ls := m.map Prod.snd with hls
  have hm : m.length = ls.length := by simp [hls]
  rw [hm] at h ⊢
  rw [← sum_count_uniq ls] at h ⊢
  have hpos : ∀ l ∈ uniq ls, 1 ≤ ls.count l := fun l hl => List.count_pos_iff.2 ((mem_uniq ls l).1 hl)
  revert h hpos
  generalize uniq ls = us
  intro h hpos
  have key : ∀ us : List Int, (∀ l ∈ us, 1 ≤ ls.count l) →
      (us.map fun l => max (ls.count l / 2) 1).sum ≤ (us.map fun l => ls.count l).sum ∧
      (us.length < (us.map fun l => ls.count l).sum →
        (us.map fun l => max (ls.count l / 2) 1).sum < (us.map fun l => ls.count l).sum) := by
    intro us
    induction us with
    | nil => intro _; simp
    | cons l us ih =>
      intro hp
      obtain ⟨i1, i2⟩ := ih fun l' hl' => hp l' (List.mem_cons_of_mem _ hl')
      have hl := hp l List.mem_cons_self
      simp only [List.map_cons, List.sum_cons, List.length_cons]
      refine ⟨by omega, fun hlt => ?_⟩
      by_cases h1 : ls.count l = 1
      · have := i2 (by omega)
        omega
      · omega
  exact (key us hpos).2 h

theorem labels_clusterDown (cfg : Cfg X) (m : Mem X) : ∀ q ∈ clusterDown cfg m, q.2 ∈ m.map Prod.snd := by
  intro q hq
  unfold clusterDown at hq
  obtain ⟨l, hl, hq⟩ := List.mem_flatMap.1 hq
  obtain ⟨i, _, rfl⟩ := List.mem_map.1 hq
  exact (mem_uniq _ _).1 hl

theorem zipIdx_filter_sublist {α : Type} (l : List α) (p : α × Nat → Bool) (n : Nat) :
    (((l.zipIdx n).filter p).map Prod.fst).Sublist l := by
  have := (List.filter_sublist (p := p) (l := l.zipIdx n)).map Prod.fst
  simpa using this

theorem cleanOne_sublist (cfg : Cfg X) (stm cl : Mem X) (i : Nat) : (cleanOne cfg stm cl i).Sublist cl := by
  unfold cleanOne
  split
  · exact List.Sublist.refl _
  · simp only
    split
    · exact List.Sublist.refl _
    · exact zipIdx_filter_sublist _ _ 0

theorem clean_sublist (cfg : Cfg X) (stm cl : Mem X) (b : Bool) : (clean cfg stm cl b).Sublist cl := by
  unfold clean
  by_cases hc : stm.length > cfg.k ∧ cl.length > 0
  · rw [if_pos hc]
    clear hc
    generalize (if b = true then [stm.length - 1] else List.range stm.length) = is
    induction is generalizing cl with
    | nil => exact List.Sublist.refl _
    | cons i is ih => exact (ih _).trans (cleanOne_sublist cfg stm cl i)
  · rw [if_neg hc]

/-- Which memories would have predicted the sample right. -/
def mark (cfg : Cfg X) (s : St X) (e : X × Int × Nat) : Bool × Bool × Bool :=
  let p := preds cfg s e.1
  (p.1 == e.2.1, p.2.1 == e.2.1, p.2.2 == e.2.1)

/-- These for all samples of a stream, each judged just before it was learned. -/
def marks (cfg : Cfg X) : List (X × Int × Nat) → St X → List (Bool × Bool × Bool)
  | [], _ => []
  | e :: es, s => mark cfg s e :: (match step cfg s e with
    | .ok s' => marks cfg es s'
    | .error _ => [])

/-- The labelled samples of a stream. -/
def samples (es : List (X × Int × Nat)) : Mem X := es.map fun e => (e.1, e.2.1)

/-- What holds between samples, `xs` being the samples seen, `ms` their marks and `ys`
the labels in use. -/
structure Inv (cfg : Cfg X) (ys : List Int) (xs : Mem X) (ms : List (Bool × Bool × Bool)) (s : St X) : Prop where
  suffix : s.stm <:+ xs
  size : s.stm.length + s.ltm.length ≤ cfg.M
  marksLen : ms.length = xs.length
  hist : cfg.useLtm = true → s.hist = lastN s.stm.length ms
  noLtm : cfg.useLtm = false → s.ltm = []
  labels : ∀ q ∈ s.stm ++ s.ltm, q.2 ∈ ys

theorem uniq_le (ys : List Int) (m : Mem X) (h : ∀ q ∈ m, q.2 ∈ ys) :
    (uniq (m.map Prod.snd)).length ≤ ys.dedup.length := by
  apply List.Subperm.length_le
  apply (nodup_uniq _).subperm
  intro l hl
  rw [mem_uniq, List.mem_map] at hl
  obtain ⟨q, hq, rfl⟩ := hl
  exact List.mem_dedup.2 (h q hq)

/-- After one more sample the size check brings the memories back to the maximum. -/
theorem sizeCheck_ok (cfg : Cfg X) (ys : List Int) (had : cfg.adapt = true) (hl0 : 0 ≤ cfg.ltm)
    (hlt : ⌊cfg.ltm⌋ < cfg.M) (hys : (ys.dedup.length : Int) ≤ ⌊cfg.ltm⌋ ∨ cfg.useLtm = false) (s : St X)
    (hsize : s.stm.length + s.ltm.length ≤ cfg.M + 1) (hne : 1 ≤ s.stm.length)
    (hh : cfg.useLtm = true → s.hist.length = s.stm.length) (hno : cfg.useLtm = false → s.ltm = [])
    (hlab : ∀ q ∈ s.stm ++ s.ltm, q.2 ∈ ys) :
    ∃ s' d, sizeCheck cfg s = .ok s' ∧ s'.stm = s.stm.drop d ∧ s'.hist = (if cfg.useLtm then s.hist.drop d else s.hist) ∧
      d < s.stm.length ∧
      s'.stm.length + s'.ltm.length ≤ cfg.M ∧ (cfg.useLtm = false → s'.ltm = []) ∧
      ∀ q ∈ s'.stm ++ s'.ltm, q.2 ∈ ys := by
  have hM : 1 ≤ cfg.M := by
    have : (0 : Int) ≤ ⌊cfg.ltm⌋ := Int.floor_nonneg.2 hl0
    omega
  unfold sizeCheck
  cases hu : cfg.useLtm with
  | true =>
    have hys' : (ys.dedup.length : Int) ≤ ⌊cfg.ltm⌋ := by
      rcases hys with h | h
      · exact h
      · rw [hu] at h; cases h
    simp only [if_true]
    by_cases hb : s.stm.length + s.ltm.length > cfg.M
    · rw [if_pos hb]
      by_cases hL : (s.ltm.length : ℚ) > cfg.ltm
      · rw [if_pos hL]
        have hL' : ⌊cfg.ltm⌋ < (s.ltm.length : Int) := by
          rw [Int.floor_lt]; exact_mod_cast hL
        have hlab' : ∀ q ∈ s.ltm, q.2 ∈ ys := fun q hq => hlab q (List.mem_append_right _ hq)
        have := clusterDown_lt cfg s.ltm (by have := uniq_le ys s.ltm hlab'; omega)
        refine ⟨_, 0, rfl, by simp, by simp, by omega, ?_, (fun h => by simp at h), ?_⟩
        · simp only; omega
        · intro q hq
          rcases List.mem_append.1 hq with hq | hq
          · exact hlab q (List.mem_append_left _ hq)
          · obtain ⟨q', hq', e⟩ := List.mem_map.1 (labels_clusterDown cfg s.ltm q hq)
            rw [← e]; exact hlab' q' hq'
      · rw [if_neg hL]
        have hfl : (⌊cfg.ltm - s.ltm.length + 1⌋).toNat = (⌊cfg.ltm⌋ - s.ltm.length + 1).toNat := by
          rw [Int.floor_add_one, Int.floor_sub_natCast]
        have hle : (s.ltm.length : Int) ≤ ⌊cfg.ltm⌋ := by
          rw [Int.le_floor]; exact_mod_cast not_lt.1 hL
        set n := (⌊cfg.ltm - s.ltm.length + 1⌋).toNat with hn
        have hn' : (n : Int) = ⌊cfg.ltm⌋ - s.ltm.length + 1 := by rw [hfl]; omega
        have hns : n < s.stm.length := by omega
        rw [if_neg (by omega), had]
        simp only [Bool.not_true, Bool.false_eq_true, if_false]
        rw [if_neg (by rw [hh hu]; omega)]
        have hlab' : ∀ q ∈ s.ltm ++ s.stm.take n, q.2 ∈ ys := by
          intro q hq
          rcases List.mem_append.1 hq with hq | hq
          · exact hlab q (List.mem_append_right _ hq)
          · exact hlab q (List.mem_append_left _ (List.mem_of_mem_take hq))
        have hlen : (s.ltm ++ s.stm.take n).length = s.ltm.length + n := by
          rw [List.length_append, List.length_take]; omega
        have := clusterDown_lt cfg (s.ltm ++ s.stm.take n) (by
          have := uniq_le ys _ hlab'
          omega)
        refine ⟨_, n, rfl, rfl, by simp, by omega, ?_, (fun h => by simp at h), ?_⟩
        · simp only [List.length_drop]; omega
        · intro q hq
          rcases List.mem_append.1 hq with hq | hq
          · exact hlab q (List.mem_append_left _ (List.mem_of_mem_drop hq))
          · obtain ⟨q', hq', e⟩ := List.mem_map.1 (labels_clusterDown cfg _ q hq)
            rw [← e]; exact hlab' q' hq'
    · rw [if_neg hb]
      exact ⟨s, 0, rfl, by simp, by simp, by omega, by omega, (fun h => by simp at h), hlab⟩
  | false =>
    simp only [Bool.false_eq_true, if_false]
    have hl := hno hu
    rw [hl] at hsize hlab
    simp only [List.length_nil, Nat.add_zero, List.append_nil] at hsize hlab
    by_cases hb : s.stm.length > cfg.M
    · rw [if_pos hb, had]
      simp only [Bool.not_true, Bool.false_eq_true, if_false]
      refine ⟨_, 1, rfl, rfl, rfl, by omega, ?_, fun _ => hl, ?_⟩
      · simp only [List.length_drop, hl, List.length_nil]; omega
      · intro q hq
        simp only [hl, List.append_nil] at hq
        exact hlab q (List.mem_of_mem_drop hq)
    · rw [if_neg hb]
      refine ⟨s, 0, rfl, by simp, rfl, by omega, by rw [hl]; simp; omega, fun _ => hl, ?_⟩
      rw [hl, List.append_nil]; exact hlab

theorem sizeCheck_noop (cfg : Cfg X) (s : St X) (h : s.stm.length + s.ltm.length ≤ cfg.M) :
    sizeCheck cfg s = .ok s := by
  unfold sizeCheck
  cases cfg.useLtm with
  | true => simp only [if_true]; rw [if_neg (by omega)]
  | false => simp only [Bool.false_eq_true, if_false]; rw [if_neg (by omega)]

theorem drop_lastN {α : Type} (d n : Nat) (l : List α) (hn : n ≤ l.length) :
    (lastN n l).drop d = lastN (n - d) l := by
  unfold lastN
  rw [List.drop_drop]
  by_cases h : d ≤ n
  · congr 1; omega
  · rw [List.drop_eq_nil_of_le (by omega), List.drop_eq_nil_of_le (by omega)]

theorem lastN_snoc {α : Type} (n : Nat) (l : List α) (a : α) : lastN n l ++ [a] = lastN (n + 1) (l ++ [a]) := by
  unfold lastN
  rw [List.length_append, List.length_singleton, List.drop_append_of_le_length (by omega)]
  congr 2; omega

theorem suffix_drop {α : Type} {l m : List α} (h : l <:+ m) (d : Nat) : l.drop d <:+ m :=
  (List.drop_suffix d l).trans h

theorem step_ok (cfg : Cfg X) (ys : List Int) (had : cfg.adapt = true) (hl0 : 0 ≤ cfg.ltm)
    (hlt : ⌊cfg.ltm⌋ < cfg.M) (hys : (ys.dedup.length : Int) ≤ ⌊cfg.ltm⌋ ∨ cfg.useLtm = false) (xs : Mem X)
    (ms : List (Bool × Bool × Bool)) (s : St X) (h : Inv cfg ys xs ms s) (e : X × Int × Nat) (he : e.2.1 ∈ ys) :
    ∃ s', step cfg s e = .ok s' ∧ Inv cfg ys (xs ++ [(e.1, e.2.1)]) (ms ++ [mark cfg s e]) s' := by
  obtain ⟨x, y, w⟩ := e
  have hsx : s.stm ++ [(x, y)] <:+ xs ++ [(x, y)] := by
    obtain ⟨t, ht⟩ := h.suffix
    exact ⟨t, by rw [← ht]; simp⟩
  have hsl : s.stm.length ≤ ms.length := by rw [h.marksLen]; exact h.suffix.length_le
  have hsize := h.size
  set m := mark cfg s (x, y, w) with hm
  set h0 : List (Bool × Bool × Bool) := if cfg.useLtm then s.hist ++ [m] else s.hist with hh0
  have hh0' : cfg.useLtm = true → h0 = lastN (s.stm.length + 1) (ms ++ [m]) := by
    intro hu
    rw [hh0, if_pos hu, h.hist hu, lastN_snoc]
  obtain ⟨s1, d, c1, c2, c3, c4, c5, c6, c7⟩ := sizeCheck_ok cfg ys had hl0 hlt hys ⟨s.stm ++ [(x, y)], s.ltm, h0⟩
    (by simp only [List.length_append, List.length_singleton]; omega) (by simp)
    (by
      intro hu
      rw [hh0' hu]
      simp only [length_lastN, List.length_append, List.length_singleton]
      omega)
    h.noLtm
    (by
      intro q hq
      rw [List.append_assoc] at hq
      rcases List.mem_append.1 hq with hq | hq
      · exact h.labels q (List.mem_append_left _ hq)
      · rcases List.mem_append.1 hq with hq | hq
        · rw [List.mem_singleton] at hq; rw [hq]; exact he
        · exact h.labels q (List.mem_append_right _ hq))
  simp only at c2 c3 c4
  have hs1 : s1.stm.length = s.stm.length + 1 - d := by
    rw [c2, List.length_drop, List.length_append, List.length_singleton]
  rw [List.length_append, List.length_singleton] at c4
  have hhist1 : cfg.useLtm = true → s1.hist = lastN s1.stm.length (ms ++ [m]) := by
    intro hu
    rw [c3, if_pos hu, hh0' hu, drop_lastN _ _ _ (by simp; omega), hs1]
  have hsub := clean_sublist cfg s1.stm s1.ltm true
  have hInv2 : Inv cfg ys (xs ++ [(x, y)]) (ms ++ [m]) { s1 with ltm := clean cfg s1.stm s1.ltm true } := by
    refine ⟨?_, ?_, by simp [h.marksLen], hhist1, ?_, ?_⟩
    · simp only; rw [c2]; exact suffix_drop hsx d
    · have := hsub.length_le
      simp only; omega
    · intro hu
      have := c6 hu
      rw [this] at hsub
      simpa [this] using hsub
    · intro q hq
      rcases List.mem_append.1 hq with hq | hq
      · exact c7 q (List.mem_append_left _ hq)
      · exact c7 q (List.mem_append_right _ (hsub.subset hq))
  unfold step
  simp only
  have e1 : (if cfg.useLtm = true then s.hist ++ [((preds cfg s x).1 == y, (preds cfg s x).2.1 == y, (preds cfg s x).2.2 == y)]
      else s.hist) = h0 := rfl
  rw [e1, c1]
  simp only [had, Bool.not_true, Bool.false_eq_true, if_false]
  rw [if_neg (by omega), if_neg (by omega)]
  by_cases hw : w < s1.stm.length
  · rw [if_pos hw]
    set dd := s1.stm.length - w with hdd
    cases hu : cfg.useLtm with
    | true =>
      simp only [if_true]
      have hhl : s1.hist.length = s1.stm.length := by
        rw [hhist1 hu, length_lastN, List.length_append, List.length_singleton]; omega
      rw [if_neg (by omega)]
      have hsub2 := clean_sublist cfg (s1.stm.drop dd) (s1.stm.take dd) false
      have hl2 := hsub2.length_le
      rw [List.length_take] at hl2
      have hl1 := hsub.length_le
      rw [sizeCheck_noop]
      · refine ⟨_, rfl, ?_, ?_, by simp [h.marksLen], ?_, (fun h => by rw [hu] at h; cases h), ?_⟩
        · exact suffix_drop hInv2.suffix dd
        · simp only [List.length_append, List.length_drop]; omega
        · intro _
          simp only [List.length_drop]
          rw [hhist1 hu, drop_lastN _ _ _ (by simp; omega)]
        · intro q hq
          simp only [List.mem_append] at hq
          rcases hq with hq | hq | hq
          · exact c7 q (List.mem_append_left _ (List.mem_of_mem_drop hq))
          · exact c7 q (List.mem_append_right _ (hsub.subset hq))
          · exact c7 q (List.mem_append_left _ (List.mem_of_mem_take (hsub2.subset hq)))
      · simp only [List.length_append, List.length_drop]; omega
    | false =>
      simp only [Bool.false_eq_true, if_false]
      refine ⟨_, rfl, ?_, ?_, by simp [h.marksLen], (fun h => by rw [hu] at h; cases h), hInv2.noLtm, ?_⟩
      · exact suffix_drop hInv2.suffix dd
      · have := hInv2.size
        simp only [List.length_drop] at this ⊢; omega
      · intro q hq
        rcases List.mem_append.1 hq with hq | hq
        · exact hInv2.labels q (List.mem_append_left _ (List.mem_of_mem_drop hq))
        · exact hInv2.labels q (List.mem_append_right _ hq)
  · rw [if_neg hw]
    exact ⟨_, rfl, hInv2⟩

theorem run_ok (cfg : Cfg X) (ys : List Int) (had : cfg.adapt = true) (hl0 : 0 ≤ cfg.ltm)
    (hlt : ⌊cfg.ltm⌋ < cfg.M) (hys : (ys.dedup.length : Int) ≤ ⌊cfg.ltm⌋ ∨ cfg.useLtm = false)
    (es : List (X × Int × Nat)) (hes : ∀ e ∈ es, e.2.1 ∈ ys) (xs : Mem X)
    (ms : List (Bool × Bool × Bool)) (s : St X) (h : Inv cfg ys xs ms s) :
    ∃ s', run cfg es s = .ok s' ∧ Inv cfg ys (xs ++ samples es) (ms ++ marks cfg es s) s' := by
  induction es generalizing xs ms s with
  | nil => exact ⟨s, rfl, by simpa [samples, marks] using h⟩
  | cons e es ih =>
    obtain ⟨s1, e1, i1⟩ := step_ok cfg ys had hl0 hlt hys xs ms s h e (hes e List.mem_cons_self)
    obtain ⟨s2, e2, i2⟩ := ih (fun e' he' => hes e' (List.mem_cons_of_mem _ he')) _ _ s1 i1
    refine ⟨s2, by simp only [run, e1, e2], ?_⟩
    rw [marks, e1]
    simpa [samples] using i2

/-- **C128, partial.** With an STM size option, a long-term share below one and at most
as many distinct labels as the long-term memory may hold, training never fails, the
short-term memory is the newest part of the stream in order, both memories together
hold at most `max_window_size` samples, every long-term sample carries a label of the
stream, and without `use_ltm` there are none. -/
theorem C128_memories_partial (cfg : Cfg X) (had : cfg.adapt = true) (hl0 : 0 ≤ cfg.ltm)
    (hlt : ⌊cfg.ltm⌋ < cfg.M) (es : List (X × Int × Nat))
    (hys : (((es.map fun e => e.2.1).dedup.length : Nat) : Int) ≤ ⌊cfg.ltm⌋ ∨ cfg.useLtm = false) :
    ∃ s, run cfg es init = .ok s ∧ s.stm <:+ samples es ∧ s.stm.length + s.ltm.length ≤ cfg.M ∧
      (∀ q ∈ s.ltm, q.2 ∈ es.map fun e => e.2.1) ∧ (cfg.useLtm = false → s.ltm = []) := by
  obtain ⟨s, h1, h2⟩ := run_ok cfg _ had hl0 hlt hys es (fun e he => List.mem_map.2 ⟨e, he, rfl⟩) [] [] init
    ⟨by simp [init], by simp [init], rfl, fun _ => rfl, fun _ => rfl, by simp [init]⟩
  refine ⟨s, h1, ?_, h2.size, fun q hq => h2.labels q (List.mem_append_right _ hq), h2.noLtm⟩
  simpa using h2.suffix

theorem clean_nil (cfg : Cfg X) (stm : Mem X) (b : Bool) : clean cfg stm [] b = [] := by simp [clean]

theorem run_append (cfg : Cfg X) (es fs : List (X × Int × Nat)) (s : St X) :
    run cfg (es ++ fs) s = (match run cfg es s with
      | .ok s' => run cfg fs s'
      | .error e => .error e) := by
  induction es generalizing s with
  | nil => rfl
  | cons e es ih =>
    rw [List.cons_append, run, run]
    cases step cfg s e with
    | error err => rfl
    | ok s' => exact ih s'

/-- As long as the stream fits, and the sizer keeps everything, the short-term memory
is the stream. -/
theorem run_small (cfg : Cfg X) (es : List (X × Int × Nat)) (hes : es.length ≤ cfg.M)
    (hw : cfg.adapt = true → ∀ e ∈ es, es.length ≤ e.2.2) :
    ∃ s, run cfg es init = .ok s ∧ s.stm = samples es ∧ s.ltm = [] ∧
      (cfg.useLtm = true → s.hist.length = es.length) := by
  induction es using List.reverseRecOn with
  | nil => exact ⟨init, rfl, rfl, rfl, fun _ => rfl⟩
  | append_singleton es e ih =>
    rw [List.length_append, List.length_singleton] at hes
    obtain ⟨s, h1, h2, h3, h4⟩ := ih (by omega) fun ha e' he' => by
      have := hw ha e' (List.mem_append_left _ he')
      rw [List.length_append, List.length_singleton] at this
      omega
    obtain ⟨x, y, w⟩ := e
    have hlen : s.stm.length = es.length := by rw [h2]; simp [samples]
    rw [run_append, h1]
    simp only [run, step]
    rw [sizeCheck_noop]
    · simp only [h3, clean_nil]
      cases ha : cfg.adapt with
      | false =>
        simp only [Bool.not_false, if_true]
        refine ⟨_, rfl, ?_, rfl, ?_⟩
        · simp only [h2]; simp [samples]
        · intro hu
          simp only [hu, if_true, List.length_append, List.length_singleton, h4 hu]
      | true =>
        have hwe := hw ha (x, y, w) (by simp)
        simp only [List.length_append, List.length_singleton] at hwe
        simp only [Bool.not_true, Bool.false_eq_true, if_false, List.length_append, List.length_singleton, hlen]
        rw [if_neg (by omega), if_neg (by omega), if_neg (by omega)]
        refine ⟨_, rfl, ?_, rfl, ?_⟩
        · simp only [h2]; simp [samples]
        · intro hu
          simp only [hu, if_true, List.length_append, List.length_singleton, h4 hu]
    · simp only [h3, List.length_append, List.length_singleton, List.length_nil, hlen]; omega

theorem run_error (cfg : Cfg X) (es fs : List (X × Int × Nat)) (s : St X) (err : PyErr)
    (h : run cfg es s = .error err) : run cfg (es ++ fs) s = .error err := by
  rw [run_append, h]

/-- **C128, violated.** With `stm_size_option=None`, documented as a fixed sliding
window, every stream of more than `max_window_size` samples ends in an `AttributeError`. -/
theorem C128_no_size_option_violated (cfg : Cfg X) (had : cfg.adapt = false) (hl0 : 0 ≤ cfg.ltm)
    (hlt : ⌊cfg.ltm⌋ ≤ cfg.M) (es : List (X × Int × Nat)) (hes : cfg.M < es.length) :
    run cfg es init = .error .attributeError := by
  rw [← List.take_append_drop (cfg.M + 1) es]
  apply run_error
  have hl : (es.take (cfg.M + 1)).length = cfg.M + 1 := by rw [List.length_take]; omega
  generalize es.take (cfg.M + 1) = es' at hl
  induction es' using List.reverseRecOn with
  | nil => simp at hl
  | append_singleton es' e _ =>
    rw [List.length_append, List.length_singleton] at hl
    obtain ⟨s, h1, h2, h3, h4⟩ := run_small cfg es' (by omega) (by rw [had]; intro h; cases h)
    obtain ⟨x, y, w⟩ := e
    have hlen : s.stm.length = es'.length := by rw [h2]; simp [samples]
    rw [run_append, h1]
    simp only [run, step, sizeCheck, h3, List.length_append, List.length_singleton, List.length_nil, hlen, had]
    cases hu : cfg.useLtm with
    | false =>
      simp only [Bool.false_eq_true, if_false]
      rw [if_pos (by omega)]
      simp
    | true =>
      have hfl := Int.floor_nonneg.2 hl0
      have hn : (⌊cfg.ltm - ((0 : Nat) : ℚ) + 1⌋).toNat = (⌊cfg.ltm⌋ + 1).toNat := by
        rw [Int.floor_add_one]; simp
      simp only [if_true]
      rw [if_pos (by omega), if_neg (by push_cast; linarith), hn, if_neg (by omega)]
      simp

/-- **C128, violated.** With `ltm_size=1.0` the first overflow empties the short-term
memory and the sample that causes it raises a `ValueError`. -/
theorem C128_ltm_size_one_violated (cfg : Cfg X) (had : cfg.adapt = true) (hu : cfg.useLtm = true)
    (hlt : cfg.ltm = cfg.M) (es : List (X × Int × Nat)) (hes : es.length = cfg.M + 1)
    (hw : ∀ e ∈ es, es.length ≤ e.2.2) : run cfg es init = .error .valueError := by
  induction es using List.reverseRecOn with
  | nil => simp at hes
  | append_singleton es e _ =>
    rw [List.length_append, List.length_singleton] at hes
    obtain ⟨s, h1, h2, h3, h4⟩ := run_small cfg es (by omega) (fun _ e' he' => by
      have := hw e' (List.mem_append_left _ he')
      rw [List.length_append, List.length_singleton] at this
      omega)
    obtain ⟨x, y, w⟩ := e
    have hlen : s.stm.length = es.length := by rw [h2]; simp [samples]
    have hn : (⌊(cfg.M : ℚ) - ((0 : Nat) : ℚ) + 1⌋).toNat = cfg.M + 1 := by
      rw [Int.floor_add_one]; simp
    rw [run_append, h1]
    simp only [run, step, sizeCheck, h3, List.length_append, List.length_singleton, List.length_nil, hlen, had, hu, hlt,
      if_true, h4 hu, hn]
    rw [if_pos (by omega), if_neg (by push_cast; have : (0 : ℚ) ≤ cfg.M := Nat.cast_nonneg _; linarith),
      if_neg (by omega)]
    simp only [Bool.not_true, Bool.false_eq_true, if_false]
    rw [if_neg (by omega)]
    simp only [List.length_drop, List.length_append, List.length_singleton, hlen]
    rw [if_pos (by omega)]

theorem map_fst_zipIdx {α : Type} (l : List α) : l.zipIdx.map Prod.fst = l := by simp

theorem cleanOne_same (cfg : Cfg X) (stm cl : Mem X) (y : Int) (hs : ∀ q ∈ stm, q.2 = y) (hc : ∀ q ∈ cl, q.2 = y)
    (i : Nat) : cleanOne cfg stm cl i = cl := by
  unfold cleanOne
  cases he : stm[i]? with
  | none => rfl
  | some q =>
    obtain ⟨x, y'⟩ := q
    have hy : y' = y := hs (x, y') (List.mem_of_getElem? he)
    subst hy
    simp only
    split
    · rfl
    · rename_i thr _
      have hdel : ∀ l : List Nat, (l.filter fun j => match cl[j]? with
          | some q => decide (q.2 ≠ y' ∧ cfg.dist x q.1 ≤ thr)
          | none => false) = [] := by
        intro l
        rw [List.filter_eq_nil_iff]
        intro j _
        cases hj : cl[j]? with
        | none => simp
        | some q => simp [hc q (List.mem_of_getElem? hj)]
      rw [hdel]
      simp

theorem clean_same (cfg : Cfg X) (stm cl : Mem X) (y : Int) (hs : ∀ q ∈ stm, q.2 = y) (hc : ∀ q ∈ cl, q.2 = y)
    (b : Bool) : clean cfg stm cl b = cl := by
  unfold clean
  by_cases hcc : stm.length > cfg.k ∧ cl.length > 0
  · rw [if_pos hcc]
    clear hcc
    generalize (if b = true then [stm.length - 1] else List.range stm.length) = is
    induction is with
    | nil => rfl
    | cons i is ih => rw [List.foldl_cons, cleanOne_same cfg stm cl y hs hc, ih]
  · rw [if_neg hcc]

theorem clusterDown_single (cfg : Cfg X) (q : X × Int) :
    (clusterDown cfg [q]).length = 1 ∧ ∀ r ∈ clusterDown cfg [q], r.2 = q.2 := by
  constructor
  · rw [length_clusterDown]
    simp [uniq]
  · intro r hr
    simpa using labels_clusterDown cfg [q] r hr

/-- **C128, violated.** With `ltm_size=0` and a stream of one class the memories exceed
`max_window_size` (whatever the sizer keeps), and sample `max_window_size + 3` raises an
`IndexError`. -/
theorem C128_ltm_size_zero_violated (cfg : Cfg X) (had : cfg.adapt = true) (hu : cfg.useLtm = true)
    (hlt : cfg.ltm = 0) (hM : 1 ≤ cfg.M) (y : Int) (es : List (X × Int × Nat)) (hes : es.length = cfg.M)
    (e1 e2 e3 : X × Int × Nat) (hy : ∀ e ∈ es ++ [e1, e2, e3], e.2.1 = y ∧ cfg.M + 3 ≤ e.2.2) :
    (∃ s, run cfg (es ++ [e1, e2]) init = .ok s ∧ s.stm.length + s.ltm.length = cfg.M + 2) ∧
    run cfg (es ++ [e1, e2, e3]) init = .error .indexError := by
  obtain ⟨s, h1, h2, h3, h4⟩ := run_small cfg es (by omega) (fun _ e he => by
    have := (hy e (List.mem_append_left _ he)).2
    omega)
  have hlen : s.stm.length = cfg.M := by rw [h2]; simp [samples, hes]
  have hlab : ∀ q ∈ s.stm, q.2 = y := by
    intro q hq
    rw [h2] at hq
    obtain ⟨e, he, rfl⟩ := List.mem_map.1 hq
    exact (hy e (List.mem_append_left _ he)).1
  obtain ⟨x1, y1, w1⟩ := e1
  obtain ⟨x2, y2, w2⟩ := e2
  obtain ⟨x3, y3, w3⟩ := e3
  obtain ⟨g1, g1'⟩ := hy (x1, y1, w1) (by simp)
  obtain ⟨g2, g2'⟩ := hy (x2, y2, w2) (by simp)
  obtain ⟨g3, g3'⟩ := hy (x3, y3, w3) (by simp)
  simp only at g1 g1' g2 g2' g3 g3'
  clear hy
  rw [g1, g2, g3]
  clear g1 g2 g3 y1 y2 y3
  rename' y => y1
  have hn : (⌊(0 : ℚ) - ((0 : Nat) : ℚ) + 1⌋).toNat = 1 := by norm_num
  -- the overflowing sample
  obtain ⟨a, ha⟩ : ∃ a, (s.stm ++ [(x1, y1)]).take 1 = [a] := by
    cases hs : s.stm with
    | nil => rw [hs] at hlen; simp at hlen; omega
    | cons a l => exact ⟨a, rfl⟩
  have hall : ∀ q ∈ s.stm ++ [(x1, y1)], q.2 = y1 := by
    intro q hq
    rcases List.mem_append.1 hq with hq | hq
    · exact hlab q hq
    · rw [List.mem_singleton] at hq; rw [hq]
  have hay : a.2 = y1 := hall a (List.mem_of_mem_take (by rw [ha]; simp))
  obtain ⟨k1, k2⟩ := clusterDown_single cfg a
  have hdrop : ∀ q ∈ (s.stm ++ [(x1, y1)]).drop 1, q.2 = y1 := fun q hq => hall q (List.mem_of_mem_drop hq)
  have hstep1 : ∃ s1, step cfg s (x1, y1, w1) = .ok s1 ∧ s1.stm.length = cfg.M ∧ s1.ltm.length = 1 ∧
      (∀ q ∈ s1.stm, q.2 = y1) ∧ ∀ q ∈ s1.ltm, q.2 = y1 := by
    simp only [step, sizeCheck, h3, List.length_append, List.length_singleton, List.length_nil, hlen, had, hu, hlt,
      if_true, h4 hu, hn, hes]
    rw [if_pos (by omega), if_neg (by norm_num), if_neg (by omega)]
    simp only [Bool.not_true, Bool.false_eq_true, if_false]
    rw [if_neg (by omega)]
    simp only [List.nil_append, ha]
    rw [clean_same cfg _ _ y1 hdrop (fun q hq => by rw [k2 q hq, hay])]
    simp only [List.length_drop, List.length_append, List.length_singleton, hlen]
    rw [if_neg (by omega), if_neg (by omega), if_neg (by omega)]
    refine ⟨_, rfl, ?_, k1, hdrop, fun q hq => by rw [k2 q hq, hay]⟩
    simp only [List.length_drop, List.length_append, List.length_singleton, hlen]
    omega
  obtain ⟨s1, r1, r2, r3, r4, r5⟩ := hstep1
  -- later samples: the long-term memory holds one sample, which cannot be compressed
  have next : ∀ (t : St X) (x : X) (w : Nat), cfg.M + 3 ≤ w → cfg.M ≤ t.stm.length → t.stm.length ≤ cfg.M + 1 →
      t.ltm.length = 1 → (∀ q ∈ t.stm, q.2 = y1) → (∀ q ∈ t.ltm, q.2 = y1) →
      (t.stm.length = cfg.M + 1 → step cfg t (x, y1, w) = .error .indexError) ∧
      (t.stm.length = cfg.M → ∃ t', step cfg t (x, y1, w) = .ok t' ∧ t'.stm.length = cfg.M + 1 ∧
        t'.ltm.length = 1 ∧ (∀ q ∈ t'.stm, q.2 = y1) ∧ ∀ q ∈ t'.ltm, q.2 = y1) := by
    intro t x w hw hl1 hl2 hl3 hls hll
    obtain ⟨b, hb⟩ := List.length_eq_one_iff.1 hl3
    obtain ⟨c1, c2⟩ := clusterDown_single cfg b
    have hby : b.2 = y1 := hll b (by rw [hb]; simp)
    have hall' : ∀ q ∈ t.stm ++ [(x, y1)], q.2 = y1 := by
      intro q hq
      rcases List.mem_append.1 hq with hq | hq
      · exact hls q hq
      · rw [List.mem_singleton] at hq; rw [hq]
    have hs : ∀ h, sizeCheck cfg ⟨t.stm ++ [(x, y1)], t.ltm, h⟩ = .ok ⟨t.stm ++ [(x, y1)], clusterDown cfg [b], h⟩ := by
      intro h
      simp only [sizeCheck, hu, if_true, hl3, List.length_append, List.length_singleton, hlt]
      rw [if_pos (by omega), if_pos (by norm_num), hb]
    simp only [step, hs, had, Bool.not_true, Bool.false_eq_true, if_false]
    rw [clean_same cfg _ _ y1 hall' (fun q hq => by rw [c2 q hq, hby])]
    simp only [List.length_append, List.length_singleton]
    constructor
    · intro h
      rw [if_neg (by omega), if_pos (by omega)]
    · intro h
      rw [if_neg (by omega), if_neg (by omega), if_neg (by omega)]
      refine ⟨_, rfl, by simp [h], c1, hall', fun q hq => by rw [c2 q hq, hby]⟩
  obtain ⟨s2, t1, t2, t3, t4, t5⟩ := (next s1 x2 w2 g2' (by omega) (by omega) r3 r4 r5).2 r2
  have t6 := (next s2 x3 w3 g3' (by omega) (by omega) t3 t4 t5).1 t2
  constructor
  · refine ⟨s2, ?_, by omega⟩
    rw [run_append, h1]
    simp only [run, r1, t1]
  · rw [run_append, h1]
    simp only [run, r1, t1, t6]

/-! ### C129: which memory answers -/

/-- **C129, partial.** The histories cover exactly the samples now in the short-term
memory, each judged just before it was learned. -/
theorem C129_history_partial (cfg : Cfg X) (had : cfg.adapt = true) (hu : cfg.useLtm = true) (hl0 : 0 ≤ cfg.ltm)
    (hlt : ⌊cfg.ltm⌋ < cfg.M) (es : List (X × Int × Nat))
    (hys : (((es.map fun e => e.2.1).dedup.length : Nat) : Int) ≤ ⌊cfg.ltm⌋) :
    ∃ s, run cfg es init = .ok s ∧ s.hist = lastN s.stm.length (marks cfg es init) ∧
      s.stm = lastN s.stm.length (samples es) := by
  obtain ⟨s, h1, h2⟩ := run_ok cfg _ had hl0 hlt (.inl hys) es (fun e he => List.mem_map.2 ⟨e, he, rfl⟩) [] [] init
    ⟨by simp [init], by simp [init], rfl, fun _ => rfl, fun _ => rfl, by simp [init]⟩
  refine ⟨s, h1, by simpa using h2.hist hu, ?_⟩
  obtain ⟨t, ht⟩ := h2.suffix
  rw [List.nil_append] at ht
  rw [← ht, lastN, List.length_append, Nat.add_sub_cancel, List.drop_left]

/-- Right predictions of a memory on the samples in the short-term memory. -/
def score (s : St X) (f : Bool × Bool × Bool → Bool) : Nat := s.hist.countP f

/-- **C129, partial.** With both memories filled, the answer is that of the memory with
the most right predictions in its history; on ties the short-term memory is preferred,
then the long-term memory. -/
theorem C129_choice_partial (cfg : Cfg X) (hu : cfg.useLtm = true) (s : St X) (x : X) (h0 : s.stm ≠ [])
    (hS : cfg.k ≤ s.stm.length) (hL : cfg.k ≤ s.ltm.length) :
    let cS := score s fun h => h.1
    let cL := score s fun h => h.2.1
    let cC := score s fun h => h.2.2
    (cL ≤ cS → cC ≤ cS → predict cfg s x = ask cfg x s.stm cfg.k) ∧
    (cS < cL → cC ≤ cL → predict cfg s x = ask cfg x s.ltm cfg.k) ∧
    (cS < cC → cL < cC → predict cfg s x = ask cfg x (s.stm ++ s.ltm) cfg.k) := by
  have h0' : s.stm.length ≠ 0 := by simpa using h0
  have e : ∀ f : Bool × Bool × Bool → Bool, rights (s.hist.map f) = score s f := by
    intro f
    rw [rights, score, List.count, List.countP_map]
    apply List.countP_congr
    intro h _
    cases hf : f h <;> simp [hf]
  have hp : preds cfg s x = (ask cfg x s.stm cfg.k, ask cfg x s.ltm cfg.k, ask cfg x (s.stm ++ s.ltm) cfg.k) := by
    rw [preds, if_neg h0', if_neg (by omega), if_pos hL]
  intro cS cL cC
  have : predict cfg s x = if cL ≤ cS ∧ cC ≤ cS then ask cfg x s.stm cfg.k
      else if cC ≤ cL then ask cfg x s.ltm cfg.k else ask cfg x (s.stm ++ s.ltm) cfg.k := by
    rw [predict, if_pos hu, hp]
    simp only
    rw [if_pos ⟨hS, h0', hL⟩]
    simp only [e]
    rfl
  rw [this]
  refine ⟨fun a b => if_pos ⟨a, b⟩, fun a b => ?_, fun a b => ?_⟩
  · rw [if_neg (by omega), if_pos b]
  · rw [if_neg (by omega), if_neg (by omega)]

/-- **C129, partial.** Otherwise the short-term memory answers: with its `n_neighbors`
nearest samples, with all of them if it has fewer, with class 0 if it is empty. Without
`use_ltm` it always answers. -/
theorem C129_short_term_partial (cfg : Cfg X) (s : St X) (x : X) :
    (s.stm = [] → predict cfg s x = 0) ∧
    (s.stm ≠ [] → cfg.useLtm = false ∨ s.stm.length < cfg.k ∨ s.ltm.length < cfg.k →
      predict cfg s x = ask cfg x s.stm (min cfg.k s.stm.length)) := by
  constructor
  · intro h
    simp [predict, preds, h]
  · intro h hc
    have h' : s.stm.length ≠ 0 := by simpa using h
    unfold predict
    cases hu : cfg.useLtm with
    | false =>
      simp only [Bool.false_eq_true, if_false]
      rw [if_pos (by omega)]
    | true =>
      rw [hu] at hc
      have hc' : s.stm.length < cfg.k ∨ s.ltm.length < cfg.k := by
        rcases hc with h | h
        · cases h
        · exact h
      simp only [if_true]
      rw [if_neg (by omega), preds, if_neg h']
      by_cases hk : s.stm.length < cfg.k
      · rw [if_pos hk, min_eq_right (by omega)]
      · rw [if_neg hk, min_eq_left (by omega)]

theorem int8_id (v : Int) (h1 : -128 ≤ v) (h2 : v ≤ 127) : int8 v = v := by
  unfold int8; omega

theorem int8_range (v : Int) : -128 ≤ int8 v ∧ int8 v ≤ 127 := by
  unfold int8; omega

/-- The vote, asked about distances of samples and as many labels of eight bits for at most that many neighbours,
answers one of the labels. (True of both voting functions, `Verif.Lazy.Nearest.C129_library_partial`.) -/
def VotesInside (cfg : Cfg X) : Prop :=
  ∀ d ls k, d.length = ls.length → (∀ v ∈ d, ∃ x y, v = cfg.dist x y) → (∀ l ∈ ls, -128 ≤ l ∧ l ≤ 127) →
    1 ≤ k → k ≤ ls.length → cfg.vote d ls k ∈ ls

theorem ask_mem (cfg : Cfg X) (hv : VotesInside cfg) (x : X) (m : Mem X) (k : Nat) (hk : 1 ≤ k) (hm : k ≤ m.length) :
    ∃ q ∈ m, ask cfg x m k = int8 q.2 := by
  have := hv (m.map fun q => cfg.dist x q.1) ((m.map Prod.snd).map int8) k (by simp)
    (fun v h => by obtain ⟨q, _, e⟩ := List.mem_map.1 h; exact ⟨x, q.1, e.symm⟩)
    (fun l h => by obtain ⟨q, _, rfl⟩ := List.mem_map.1 h; exact int8_range q) hk (by simpa using hm)
  rw [List.map_map, List.mem_map] at this
  obtain ⟨q, hq, e⟩ := this
  refine ⟨q, hq, ?_⟩
  unfold ask
  rw [List.map_map]
  exact e.symm

theorem predict_mem (cfg : Cfg X) (hv : VotesInside cfg) (s : St X) (x : X)
    (h0 : s.stm ≠ []) (hk : 1 ≤ cfg.k) : ∃ q ∈ s.stm ++ s.ltm, predict cfg s x = int8 q.2 := by
  have hpos : 1 ≤ s.stm.length := List.length_pos_of_ne_nil h0
  have lift : ∀ (m : Mem X) (k : Nat), 1 ≤ k → k ≤ m.length → (∀ q ∈ m, q ∈ s.stm ++ s.ltm) →
      ∃ q ∈ s.stm ++ s.ltm, ask cfg x m k = int8 q.2 := by
    intro m k hk hm hsub
    obtain ⟨q, hq, e⟩ := ask_mem cfg hv x m k hk hm
    exact ⟨q, hsub q hq, e⟩
  by_cases hc : cfg.useLtm = false ∨ s.stm.length < cfg.k ∨ s.ltm.length < cfg.k
  · rw [(C129_short_term_partial cfg s x).2 h0 hc]
    exact lift _ _ (by omega) (by omega) fun q hq => List.mem_append_left _ hq
  · have h1 : cfg.useLtm = true ∧ cfg.k ≤ s.stm.length ∧ cfg.k ≤ s.ltm.length := by
      refine ⟨?_, by omega, by omega⟩
      cases hu : cfg.useLtm with
      | true => rfl
      | false => exact absurd (.inl hu) hc
    obtain ⟨a, b, c⟩ := C129_choice_partial cfg h1.1 s x h0 h1.2.1 h1.2.2
    rcases le_or_gt (score s fun h => h.2.1) (score s fun h => h.1) with u | u
    · rcases le_or_gt (score s fun h => h.2.2) (score s fun h => h.1) with v | v
      · rw [a u v]
        exact lift _ _ hk h1.2.1 fun q hq => List.mem_append_left _ hq
      · rw [c v (by omega)]
        exact lift _ _ hk (by simp; omega) fun q hq => hq
    · rcases le_or_gt (score s fun h => h.2.2) (score s fun h => h.2.1) with v | v
      · rw [b u v]
        exact lift _ _ hk h1.2.2 fun q hq => List.mem_append_right _ hq
      · rw [c (by omega) v]
        exact lift _ _ hk (by simp; omega) fun q hq => hq

/-- **C129, partial.** If all labels fit in eight bits, the answer is a label held in
memory. -/
theorem C129_answers_known_label_partial (cfg : Cfg X) (hv : VotesInside cfg) (s : St X)
    (x : X) (h0 : s.stm ≠ []) (hk : 1 ≤ cfg.k) (hl : ∀ q ∈ s.stm ++ s.ltm, -128 ≤ q.2 ∧ q.2 ≤ 127) :
    ∃ q ∈ s.stm ++ s.ltm, predict cfg s x = q.2 := by
  obtain ⟨q, hq, e⟩ := predict_mem cfg hv s x h0 hk
  exact ⟨q, hq, by rw [e, int8_id _ (hl q hq).1 (hl q hq).2]⟩

/-- **C129, violated.** A label above 127 (or below -128) is never predicted, even if
every sample ever seen carries it: the answer is wrapped to eight bits. -/
theorem C129_eight_bit_labels_violated (cfg : Cfg X) (hv : VotesInside cfg) (s : St X)
    (x : X) (h0 : s.stm ≠ []) (hk : 1 ≤ cfg.k) (l : Int) (hl : 127 < l ∨ l < -128) : predict cfg s x ≠ l := by
  obtain ⟨q, _, e⟩ := predict_mem cfg hv s x h0 hk
  have := int8_range q.2
  omega

/-- **C129, violated.** A long-term memory that holds too few samples to be asked is
credited with a right prediction for every sample of class 0; so is the combined memory as
long as the short-term memory is too small. -/
theorem C129_unearned_credit_violated (cfg : Cfg X) (s : St X) (x : X) (w : Nat) :
    (s.ltm.length < cfg.k → (mark cfg s (x, 0, w)).2.1 = true) ∧
    (s.stm.length < cfg.k → (mark cfg s (x, 0, w)).2.2 = true) := by
  constructor
  · intro h
    simp only [mark, preds]
    split
    · rfl
    · split
      · rfl
      · rw [if_neg (by omega)]; rfl
  · intro h
    simp only [mark, preds]
    split
    · rfl
    · rfl

/-! ### C130: cleaning the long-term memory -/

/-- Sample `j` of `cl` contradicts the new sample `(x, y)`: it is one of the
nearest samples of `cl`, has another label, and is no farther away than some sample of
label `y` among the nearest neighbours in the rest of the short-term memory. -/
def Contradicts (cfg : Cfg X) (rest : Mem X) (x : X) (y : Int) (cl : Mem X) (j : Nat) : Prop :=
  ∃ q, cl[j]? = some q ∧ q.2 ≠ y ∧ j ∈ cfg.near (min cl.length cfg.k) (cl.map fun q => cfg.dist x q.1) ∧
    ∃ i ∈ cfg.near cfg.k (rest.map fun q => cfg.dist x q.1), ∃ g, rest[i]? = some g ∧ g.2 = y ∧
      cfg.dist x q.1 ≤ cfg.dist x g.1

theorem cleanOne_spec (cfg : Cfg X) (stm cl : Mem X) (i : Nat) (x : X) (y : Int) (hi : stm[i]? = some (x, y)) :
    open Classical in
    cleanOne cfg stm cl i = (cl.zipIdx.filter fun q => ¬ Contradicts cfg (stm.eraseIdx i) x y cl q.2).map Prod.fst := by
  classical
  unfold cleanOne
  rw [hi]
  simp only
  set good := (cfg.near cfg.k ((stm.eraseIdx i).map fun q => cfg.dist x q.1)).filterMap fun j =>
      (stm.eraseIdx i)[j]?.bind fun q => if q.2 = y then some (cfg.dist x q.1) else none with hg
  have hmem : ∀ v, v ∈ good ↔ ∃ j ∈ cfg.near cfg.k ((stm.eraseIdx i).map fun q => cfg.dist x q.1), ∃ g,
      (stm.eraseIdx i)[j]? = some g ∧ g.2 = y ∧ cfg.dist x g.1 = v := by
    intro v
    rw [hg, List.mem_filterMap]
    constructor
    · rintro ⟨j, hj, e⟩
      rw [Option.bind_eq_some_iff] at e
      obtain ⟨g, hg1, hg2⟩ := e
      by_cases hy : g.2 = y
      · rw [if_pos hy, Option.some.injEq] at hg2
        exact ⟨j, hj, g, hg1, hy, hg2⟩
      · rw [if_neg hy] at hg2; cases hg2
    · rintro ⟨j, hj, g, hg1, hy, e⟩
      refine ⟨j, hj, ?_⟩
      rw [hg1, Option.bind_some, if_pos hy, e]
  cases hm : good.max? with
  | none =>
    rw [List.max?_eq_none_iff] at hm
    have : ∀ j, ¬ Contradicts cfg (stm.eraseIdx i) x y cl j := by
      rintro j ⟨q, _, _, _, i', hi', g, hg1, hg2, _⟩
      have := (hmem (cfg.dist x g.1)).2 ⟨i', hi', g, hg1, hg2, rfl⟩
      rw [hm] at this; cases this
    simp [this]
  | some thr =>
    rw [List.max?_eq_some_iff] at hm
    simp only
    congr 1
    apply List.filter_congr
    intro q hq
    have hqj : cl[q.2]? = some q.1 := by
      simpa [List.mem_zipIdx_iff_getElem?] using hq
    rw [decide_eq_decide]
    rw [not_iff_not, List.mem_filter]
    constructor
    · rintro ⟨h1, h2⟩
      rw [hqj] at h2
      simp only [decide_eq_true_eq] at h2
      obtain ⟨i', hi', g, g1, g2, g3⟩ := (hmem thr).1 hm.1
      exact ⟨q.1, hqj, h2.1, h1, i', hi', g, g1, g2, by rw [g3]; exact h2.2⟩
    · rintro ⟨q', hq', h1, h2, i', hi', g, g1, g2, g3⟩
      rw [hqj, Option.some.injEq] at hq'
      subst hq'
      refine ⟨h2, ?_⟩
      rw [hqj]
      simp only [decide_eq_true_eq]
      exact ⟨h1, g3.trans (hm.2 _ ((hmem _).2 ⟨i', hi', g, g1, g2, rfl⟩))⟩

/-- **C130.** After a sample `(x, y)` the long-term memory loses exactly the samples
that contradict it; it keeps all of them while the short-term memory holds at most
`n_neighbors` samples. -/
theorem C130_clean_with_last (cfg : Cfg X) (rest cl : Mem X) (x : X) (y : Int) :
    open Classical in
    (cfg.k ≤ rest.length → clean cfg (rest ++ [(x, y)]) cl true =
      (cl.zipIdx.filter fun q => ¬ Contradicts cfg rest x y cl q.2).map Prod.fst) ∧
    (rest.length < cfg.k → clean cfg (rest ++ [(x, y)]) cl true = cl) := by
  classical
  constructor
  · intro hk
    unfold clean
    by_cases hc : cl.length > 0
    · rw [if_pos ⟨by simp; omega, hc⟩]
      simp only [if_true, List.foldl_cons, List.foldl_nil, List.length_append, List.length_singleton, Nat.add_sub_cancel]
      have := cleanOne_spec cfg (rest ++ [(x, y)]) cl rest.length x y (by simp)
      have he : (rest ++ [(x, y)]).eraseIdx rest.length = rest := by
        rw [List.eraseIdx_append_of_length_le (le_refl _)]; simp
      rw [he] at this
      exact this
    · rw [if_neg (fun h => hc h.2)]
      have : cl = [] := List.length_eq_zero_iff.1 (by omega)
      subst this
      rfl
  · intro hk
    unfold clean
    rw [if_neg]
    simp; omega

theorem cleanOne_keeps (cfg : Cfg X) (stm cl : Mem X) (i : Nat) (l : Int) (h : ∀ q, stm[i]? = some q → q.2 = l) :
    (cleanOne cfg stm cl i).filter (fun q => q.2 = l) = cl.filter fun q => q.2 = l := by
  classical
  cases hi : stm[i]? with
  | none => simp only [cleanOne, hi]
  | some q =>
    obtain ⟨x, y⟩ := q
    have hy : y = l := h (x, y) hi
    subst hy
    rw [cleanOne_spec cfg stm cl i x y hi, List.filter_map, List.filter_filter]
    have : (cl.zipIdx.filter fun q => ((fun q : X × Int => decide (q.2 = y)) ∘ Prod.fst) q &&
        decide (¬ Contradicts cfg (stm.eraseIdx i) x y cl q.2)) =
        cl.zipIdx.filter fun q => decide (q.1.2 = y) := by
      apply List.filter_congr
      intro q hq
      simp only [Function.comp]
      by_cases hl : q.1.2 = y
      · have : ¬ Contradicts cfg (stm.eraseIdx i) x y cl q.2 := by
          rintro ⟨q', hq', hne, _⟩
          have hm : cl[q.2]? = some q.1 := by simpa [List.mem_zipIdx_iff_getElem?] using hq
          rw [hm, Option.some.injEq] at hq'
          rw [← hq'] at hne
          exact hne hl
        simp [hl, this]
      · simp [hl]
    rw [this]
    have hmap : (cl.zipIdx.filter fun q => decide (q.1.2 = y)).map Prod.fst = (cl.zipIdx.map Prod.fst).filter fun q => decide (q.2 = y) := by
      rw [List.filter_map]; rfl
    rw [hmap, map_fst_zipIdx]

/-- **C130.** When old samples leave the short-term memory, samples of a class that
everything left in it has are all kept. -/
theorem C130_keeps_class (cfg : Cfg X) (stm cl : Mem X) (b : Bool) (l : Int) (h : ∀ q ∈ stm, q.2 = l) :
    (clean cfg stm cl b).filter (fun q => q.2 = l) = cl.filter (fun q => q.2 = l) ∧
      (clean cfg stm cl b).Sublist cl := by
  refine ⟨?_, clean_sublist cfg stm cl b⟩
  unfold clean
  by_cases hc : stm.length > cfg.k ∧ cl.length > 0
  · rw [if_pos hc]
    clear hc
    generalize (if b = true then [stm.length - 1] else List.range stm.length) = is
    induction is generalizing cl with
    | nil => rfl
    | cons i is ih =>
      rw [List.foldl_cons, ih, cleanOne_keeps cfg stm cl i l fun q hq => h q (List.mem_of_getElem? hq)]
  · rw [if_neg hc]

/-! ### Non-vacuity -/

/-- One feature, one neighbour; distances are absolute differences. -/
def demo (ltm : ℚ) (useLtm adapt : Bool) : Cfg ℚ :=
  ⟨1, 4, ltm, useLtm, adapt, fun a b => |a - b|,
    fun n ds => (((List.range ds.length).insertionSort fun i j => ds.getD i 0 ≤ ds.getD j 0)).take n,
    fun ds ls _ => ls.getD (((List.range ds.length).insertionSort fun i j => ds.getD i 0 ≤ ds.getD j 0).headD 0) 0,
    fun s _ i => s.getD i 0⟩

/-- Six samples of two classes, window 4, at most 2 in the long-term memory. -/
example : (run (demo 2 true true) [(0, 0, 9), (1, 1, 9), (2, 0, 9), (3, 1, 9), (4, 0, 9), (5, 1, 9)] init).toOption.map
    (fun s => (s.stm, s.ltm)) = some ([(4, 0), (5, 1)], [(0, 0), (1, 1)]) := by decide +kernel

/-- The hypotheses of `C128_memories_partial` and `C129_history_partial` hold for these
samples (two classes, `⌊ltm⌋ = 2 < 4`). -/
example : ⌊(2 : ℚ)⌋ < 4 ∧ ((([(0, 0, 9), (1, 1, 9), (2, 0, 9), (3, 1, 9), (4, 0, 9), (5, 1, 9)] :
    List (ℚ × Int × Nat)).map fun e => e.2.1).dedup.length : Int) ≤ ⌊(2 : ℚ)⌋ := by decide +kernel

/-- After them both memories are filled, the long-term memory was right on both samples of
the short-term memory and the others on none; the long-term memory answers. -/
example : (run (demo 2 true true) [(0, 0, 9), (1, 1, 9), (2, 0, 9), (3, 1, 9), (4, 0, 9), (5, 1, 9)] init).toOption.map
    (fun s => (score s (fun h => h.1), score s (fun h => h.2.1), score s (fun h => h.2.2), predict (demo 2 true true) s 1)) =
      some (0, 2, 0, 1) := by decide +kernel

/-- With `ltm_size=0` the seventh sample of one class fails. -/
example : (run (demo 0 true true) [(0, 3, 9), (1, 3, 9), (2, 3, 9), (3, 3, 9), (4, 3, 9), (5, 3, 9), (6, 3, 9)]
    init).toOption.isSome = false := by decide +kernel

/-- The sample 7 of class 0 contradicts the new sample 8 of class 1, whose nearest
neighbour 6 has class 1. -/
example : clean (demo 2 true true) [(4, 0), (5, 1), (6, 1), (8, 1)] [(7, 0), (20, 1)] true = [(20, 1)] := by
  decide +kernel

/-- The nearest sample's label is one of those given, as `C129_answers_known_label_partial` asks. -/
example : (demo 2 true true).vote [3, 1, 2] [7, 8, 9] 1 = 8 := by decide +kernel

end Verif.Lazy.Sam
