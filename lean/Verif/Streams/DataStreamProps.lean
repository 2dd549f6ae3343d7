import Verif.Streams.DataStream
import Mathlib.Data.List.Sort
import Mathlib.Data.List.Perm.Basic
import Mathlib.Data.List.Induction
import Mathlib.Data.List.Nodup

/-!
C22 (batches partition the data), C51 (column split), C52 (reordering of
temporal streams).
-/

namespace Verif.Streams

variable {α β : Type}

/-- Calls made by a consumer. -/
inductive Call where
  | next (batch : Nat)
  | restart

/-- The batches received since the last restart, and the stream afterwards. -/
def consume (s : DataStream α β) : List Call → List (List (List α) × Target β) →
    List (List (List α) × Target β) × DataStream α β
  | [], acc => (acc, s)
  | .next b :: cs, acc => consume (nextSample s b).2 cs (acc ++ [(nextSample s b).1])
  | .restart :: cs, _ => consume (restart s) cs []

/-- Specification: number of samples requested since the last restart. -/
def requested : List Call → Nat → Nat
  | [], n => n
  | .next b :: cs, n => requested cs (n + b)
  | .restart :: cs, _ => requested cs 0

/-- Specification: the labels of a target batch, one list per sample when there
are several targets, otherwise the plain sequence. -/
def Target.all : Target β → List β
  | .rows l => l.flatten
  | .flat l => l

theorem take_append_slice {γ : Type} (l : List γ) (n b : Nat) :
    l.take n ++ slice l (n + b - b) (n + b) = l.take (n + b) := by
  rw [Nat.add_sub_cancel, slice, List.drop_take, Nat.add_sub_cancel_left, List.take_add]

theorem consume_inv (s0 : DataStream α β) : ∀ (cs : List Call) (s : DataStream α β)
    (acc : List (List (List α) × Target β)) (n : Nat),
    s.X = s0.X → s.y = s0.y → s.nTargets = s0.nTargets → s.sampleIdx = n →
    (acc.map Prod.fst).flatten = s0.X.take n →
    (acc.map fun p => p.2.all).flatten = (s0.y.take n).flatten →
    (∀ p ∈ acc, ∃ i b, p.1 = slice s0.X i (i + b) ∧
      (s0.nTargets < 2 ∧ p.2 = .flat (slice s0.y i (i + b)).flatten ∨
       2 ≤ s0.nTargets ∧ p.2 = .rows (slice s0.y i (i + b)))) →
    let r := consume s cs acc
    r.2.X = s0.X ∧ r.2.y = s0.y ∧ r.2.sampleIdx = requested cs n ∧
    (r.1.map Prod.fst).flatten = s0.X.take (requested cs n) ∧
    (r.1.map fun p => p.2.all).flatten = (s0.y.take (requested cs n)).flatten ∧
    (∀ p ∈ r.1, ∃ i b, p.1 = slice s0.X i (i + b) ∧
      (s0.nTargets < 2 ∧ p.2 = .flat (slice s0.y i (i + b)).flatten ∨
       2 ≤ s0.nTargets ∧ p.2 = .rows (slice s0.y i (i + b)))) := by
  intro cs
  induction cs with
  | nil => intro s acc n h1 h2 _ h4 h5 h6 h7; exact ⟨h1, h2, h4, h5, h6, h7⟩
  | cons c cs ih =>
    intro s acc n h1 h2 h3 h4 h5 h6 h7
    cases c with
    | restart =>
      exact ih (restart s) [] 0 h1 h2 h3 rfl (by simp) (by simp) (by simp)
    | next b =>
      simp only [consume, requested]
      refine ih _ _ (n + b) h1 h2 h3 (by simp [nextSample, h4]) ?_ ?_ ?_
      · rw [List.map_append, List.flatten_append, h5]
        simp only [nextSample, List.map_cons, List.map_nil, List.flatten_cons, List.flatten_nil,
          List.append_nil, h4, h1]
        exact take_append_slice _ _ _
      · rw [List.map_append, List.flatten_append, h6]
        simp only [nextSample, List.map_cons, List.map_nil, List.flatten_cons, List.flatten_nil,
          List.append_nil, h4, h2]
        rw [← take_append_slice s0.y n b, List.flatten_append]
        split <;> rfl
      · intro p hp
        rcases List.mem_append.mp hp with hp | hp
        · exact h7 p hp
        · rw [List.mem_singleton] at hp
          subst hp
          refine ⟨n, b, by simp [nextSample, h4, h1], ?_⟩
          simp only [nextSample, h4, h2, h3, Nat.add_sub_cancel]
          by_cases h : s0.nTargets < 2
          · left; exact ⟨h, by rw [if_pos h]⟩
          · right; exact ⟨by omega, by rw [if_neg h]⟩

/-- C22: whatever the batch sizes and restarts, the feature batches received
since the last restart concatenate to the first rows of the data, the label
batches to the labels of the same rows, and once as many samples as the data
holds were requested, to all of it. -/
theorem C22_batches_partition (s : DataStream α β) (h0 : s.sampleIdx = 0)
    (hlen : s.y.length = s.X.length) (cs : List Call) :
    let r := consume s cs []
    let n := requested cs 0
    (r.1.map Prod.fst).flatten = s.X.take n ∧
    (r.1.map fun p => p.2.all).flatten = (s.y.take n).flatten ∧
    (s.X.length ≤ n → (r.1.map Prod.fst).flatten = s.X ∧
      (r.1.map fun p => p.2.all).flatten = s.y.flatten) := by
  have h := consume_inv s cs s [] 0 rfl rfl rfl h0 (by simp) (by simp) (by simp)
  simp only at h ⊢
  refine ⟨h.2.2.2.1, h.2.2.2.2.1, ?_⟩
  intro hn
  rw [h.2.2.2.1, h.2.2.2.2.1, List.take_of_length_le hn, List.take_of_length_le (by omega)]
  exact ⟨rfl, rfl⟩

/-- C22: every batch pairs rows and labels of the same samples. -/
theorem C22_batches_aligned (s : DataStream α β) (h0 : s.sampleIdx = 0) (cs : List Call) :
    ∀ p ∈ (consume s cs []).1, ∃ i b, p.1 = slice s.X i (i + b) ∧
      (s.nTargets < 2 ∧ p.2 = .flat (slice s.y i (i + b)).flatten ∨
       2 ≤ s.nTargets ∧ p.2 = .rows (slice s.y i (i + b))) := by
  have h := consume_inv s cs s [] 0 rfl rfl rfl h0 (by simp) (by simp) (by simp)
  exact h.2.2.2.2.2

/-- C22: `has_more_samples` tells exactly whether rows remain: it is true iff
fewer samples than the data holds have been requested since the last restart,
and `n_remaining_samples` is the number still to come (when not overdrawn). -/
theorem C22_has_more (s : DataStream α β) (h0 : s.sampleIdx = 0) (cs : List Call) :
    let r := consume s cs []
    (hasMoreSamples r.2 = true ↔ requested cs 0 < s.X.length) ∧
    (requested cs 0 ≤ s.X.length →
      nRemaining r.2 = (s.X.drop (requested cs 0)).length) := by
  have h := consume_inv s cs s [] 0 rfl rfl rfl h0 (by simp) (by simp) (by simp)
  simp only at h ⊢
  refine ⟨?_, ?_⟩
  · simp only [hasMoreSamples, nSamples, h.1, h.2.2.1, decide_eq_true_eq]; omega
  · intro hn
    simp only [nRemaining, nSamples, h.1, h.2.2.1, List.length_drop]; omega

/-- C22: after a restart the stream behaves as when it was new. -/
theorem C22_restart_replays (s : DataStream α β) (h0 : s.sampleIdx = 0) (cs ds : List Call) :
    (consume s (cs ++ .restart :: ds) []).1 = (consume s ds []).1 := by
  have key : ∀ (cs : List Call) (t : DataStream α β) (acc : List (List (List α) × Target β)),
      t.X = s.X → t.y = s.y → t.nTargets = s.nTargets →
      (consume t (cs ++ .restart :: ds) acc).1 = (consume s ds []).1 := by
    intro cs
    induction cs with
    | nil =>
      intro t acc h1 h2 h3
      have : restart t = s := by
        cases t; cases s; simp only [restart] at *; simp_all
      simp only [List.nil_append, consume, this]
    | cons c cs ih =>
      intro t acc h1 h2 h3
      cases c with
      | next b => exact ih _ _ h1 h2 h3
      | restart => exact ih _ _ h1 h2 h3
  exact key cs s [] rfl rfl rfl

example : (consume (⟨[[1], [2], [3]], [[10], [20], [30]], 1, 0⟩ : DataStream Nat Nat)
    [.next 1, .restart, .next 2, .next 2] []).1.map Prod.fst = [[[1], [2]], [[3]]] := by decide

/-! ### C51 -/

theorem clip_nonneg {n : Nat} {i : Int} (h : 0 ≤ i) (h2 : i ≤ n) : (clip n i : Int) = i := by
  rw [clip, if_neg (by omega)]; omega

theorem clip_neg {n : Nat} {i : Int} (h : i < 0) (h2 : -n ≤ i) : (clip n i : Int) = i + n := by
  rw [clip, if_pos h]; omega

/-- The target columns are the `n` columns from the addressed position on. -/
theorem targetCols_eq {γ : Type} (t : Int) (n : Nat) (cols : List γ) (hn : 0 < n)
    (h : (0 ≤ t ∧ t + n ≤ cols.length) ∨ (t < 0 ∧ t + n ≤ 0 ∧ -(cols.length : Int) ≤ t)) :
    targetCols t n cols = (cols.drop (clip cols.length t)).take n := by
  rcases h with ⟨h1, h2⟩ | ⟨h1, h2, h3⟩
  · have hc := clip_nonneg (n := cols.length) h1 (by omega)
    unfold targetCols
    by_cases h : t + n = cols.length ∨ t + n = 0
    · rw [if_pos h, pySliceFrom, List.take_of_length_le]
      rw [List.length_drop]; omega
    · rw [if_neg h, pySlice]
      have hc2 := clip_nonneg (n := cols.length) (i := t + n) (by omega) (by omega)
      rw [List.drop_take]; congr 1; omega
  · have hc := clip_neg (n := cols.length) h1 h3
    unfold targetCols
    by_cases h : t + n = cols.length ∨ t + n = 0
    · rw [if_pos h, pySliceFrom, List.take_of_length_le]
      rw [List.length_drop]; omega
    · rw [if_neg h, pySlice]
      have hc2 := clip_neg (n := cols.length) (i := t + n) (by omega) (by omega)
      rw [List.drop_take]; congr 1; omega

theorem zip_filter_notMem {γ ν : Type} [DecidableEq ν] : ∀ (names : List ν) (cols : List γ)
    (ts : List ν), names.length = cols.length → (∀ x ∈ names, x ∉ ts) →
    ((names.zip cols).filter fun p => p.1 ∉ ts).map Prod.snd = cols := by
  intro names
  induction names with
  | nil => intro cols ts h _; simp [List.length_eq_zero_iff.mp h.symm]
  | cons x names ih =>
    intro cols ts h hx
    cases cols with
    | nil => simp at h
    | cons c cols =>
      have h1 := hx x (by simp)
      have := ih cols ts (by simpa using h) (fun y hy => hx y (List.mem_cons_of_mem _ hy))
      simp only [List.zip_cons_cons]
      rw [List.filter_cons_of_pos (by simpa using h1), List.map_cons, this]

theorem zip_filter_mem {γ ν : Type} [DecidableEq ν] : ∀ (names : List ν) (cols : List γ)
    (ts : List ν), (∀ x ∈ names, x ∈ ts) →
    ((names.zip cols).filter fun p => p.1 ∉ ts).map Prod.snd = [] := by
  intro names
  induction names with
  | nil => intro cols ts _; simp
  | cons x names ih =>
    intro cols ts hx
    cases cols with
    | nil => simp
    | cons c cols =>
      have h1 := hx x (by simp)
      have := ih cols ts (fun y hy => hx y (List.mem_cons_of_mem _ hy))
      simp only [List.zip_cons_cons]
      rw [List.filter_cons_of_neg (by simpa using h1), this]

/-- C51: for distinct column names and a target range inside the table, the
targets are the `n` columns starting at the addressed one and the features are
all other columns, in order: no column is lost and no target is among the
features.  `cols` is any row of the table (or the names themselves). -/
theorem C51_columns_split {γ ν : Type} [DecidableEq ν] (t : Int) (n : Nat) (names : List ν)
    (cols : List γ) (hlen : cols.length = names.length) (hnd : names.Nodup) (hn : 0 < n)
    (h : (0 ≤ t ∧ t + n ≤ names.length) ∨ (t < 0 ∧ t + n ≤ 0 ∧ -(names.length : Int) ≤ t)) :
    ∃ p : Nat, (p : Int) = (if t < 0 then names.length + t else t) ∧ p + n ≤ names.length ∧
      targetCols t n cols = (cols.drop p).take n ∧
      featureCols t n names cols = cols.take p ++ cols.drop (p + n) := by
  have hp : (clip names.length t : Int) = if t < 0 then names.length + t else t := by
    rcases h with ⟨h1, h2⟩ | ⟨h1, h2, h3⟩
    · rw [clip_nonneg h1 (by omega), if_neg (by omega)]
    · rw [clip_neg h1 h3, if_pos h1]; omega
  have hb : clip names.length t + n ≤ names.length := by
    split at hp <;> omega
  refine ⟨clip names.length t, hp, hb, ?_, ?_⟩
  · rw [targetCols_eq t n cols hn (by rw [hlen]; exact h), hlen]
  · unfold featureCols
    rw [targetCols_eq t n names hn h]
    generalize hP : clip names.length t = p at hb
    have hsplit : names = names.take p ++ ((names.drop p).take n ++ names.drop (p + n)) := by
      rw [← List.drop_drop, List.take_append_drop, List.take_append_drop]
    have csplit : cols = cols.take p ++ ((cols.drop p).take n ++ cols.drop (p + n)) := by
      rw [← List.drop_drop, List.take_append_drop, List.take_append_drop]
    have hnd' : (names.take p ++ ((names.drop p).take n ++ names.drop (p + n))).Nodup := by
      rw [← hsplit]; exact hnd
    rw [List.nodup_append, List.nodup_append] at hnd'
    obtain ⟨_, ⟨_, _, hd2⟩, hd1⟩ := hnd'
    generalize hts : (names.drop p).take n = ts at *
    conv_lhs => rw [hsplit, csplit]
    rw [List.zip_append (by simp [hlen]), List.zip_append (by rw [← hts]; simp [hlen]),
      List.filter_append, List.filter_append, List.map_append, List.map_append,
      zip_filter_notMem _ _ _ (by simp [hlen]), zip_filter_mem, zip_filter_notMem _ _ _ (by simp [hlen])]
    · simp
    · intro x hx hx2; exact hd2 x hx2 x hx rfl
    · intro x hx; exact hx
    · intro x hx hx2; exact hd1 x hx x (List.mem_append_left _ hx2) rfl

/-- C51: with several targets and the default target index, `FileStream` takes
the last `n` columns as targets. -/
theorem C51_file_stream_default {γ : Type} (n : Nat) (cols : List γ) (hn : 1 < n)
    (hc : n ≤ cols.length) :
    targetCols (fileTargetIdx (-1) n) n cols = cols.drop (cols.length - n) := by
  have h : fileTargetIdx (-1) n = -(n : Int) := by simp [fileTargetIdx, hn]
  rw [h, targetCols_eq _ _ _ (by omega) (by right; omega), List.take_of_length_le]
  · have := clip_neg (n := cols.length) (i := -(n : Int)) (by omega) (by omega)
    congr 1; omega
  · have := clip_neg (n := cols.length) (i := -(n : Int)) (by omega) (by omega)
    rw [List.length_drop]; omega

/-- C51: an explicitly given target index, and the default with one target, is
used by `FileStream` as it is: the targets are the `n` columns from there. -/
theorem C51_file_stream_explicit {γ : Type} (t : Int) (n : Nat) (cols : List γ) (hn : 1 ≤ n)
    (he : t ≠ -1 ∨ n = 1)
    (h : (0 ≤ t ∧ t + n ≤ cols.length) ∨ (t < 0 ∧ t + n ≤ 0 ∧ 0 ≤ cols.length + t)) :
    ∃ p : Nat, (p : Int) = (if t < 0 then cols.length + t else t) ∧ p + n ≤ cols.length ∧
      targetCols (fileTargetIdx t n) n cols = (cols.drop p).take n := by
  have hf : fileTargetIdx t n = t := by
    unfold fileTargetIdx
    rw [if_neg (by omega)]
  rw [hf]
  have hp : (clip cols.length t : Int) = if t < 0 then cols.length + t else t := by
    rcases h with ⟨h1, h2⟩ | ⟨h1, h2, h3⟩
    · rw [clip_nonneg h1 (by omega), if_neg (by omega)]
    · rw [clip_neg h1 (by omega), if_pos h1]; omega
  refine ⟨clip cols.length t, hp, ?_, ?_⟩
  · split at hp <;> omega
  · rw [targetCols_eq t n cols hn (by omega)]

/-- C51 fails for `DataStream` with several targets and the default target
index: no column becomes a target and every column becomes a feature. -/
theorem C51_data_stream_default_violated {γ ν : Type} [DecidableEq ν] (n : Nat) (names : List ν)
    (cols : List γ) (hlen : cols.length = names.length) (hn : 1 < n) (hc : n < names.length) :
    targetCols (-1) n cols = [] ∧ featureCols (-1) n names cols = cols := by
  have key : ∀ {δ : Type} (l : List δ), l.length = names.length → targetCols (-1) n l = [] := by
    intro δ l hl
    unfold targetCols
    rw [if_neg (by omega), pySlice]
    have h1 := clip_neg (n := l.length) (i := -1) (by omega) (by omega)
    have h2 := clip_nonneg (n := l.length) (i := -1 + n) (by omega) (by omega)
    rw [List.drop_eq_nil_iff, List.length_take]
    omega
  refine ⟨key cols hlen, ?_⟩
  unfold featureCols
  rw [key names rfl]
  exact zip_filter_notMem names cols [] hlen.symm (by simp)

example : targetCols (-3) 1 [1, 2, 3, 4, 5] = [3] ∧
    featureCols (-3) 1 ["a", "b", "c", "d", "e"] [1, 2, 3, 4, 5] = [1, 2, 4, 5] := by decide

/-! ### C52 -/

theorem gather_zip {γ δ : Type} (l : List γ) (m : List δ) (h : l.length = m.length) (p : List Nat) :
    (gather l p).zip (gather m p) = gather (l.zip m) p := by
  induction p with
  | nil => rfl
  | cons i p ih =>
    simp only [gather, List.filterMap_cons] at ih ⊢
    by_cases hi : i < l.length
    · have hi2 : i < m.length := by omega
      have hz : i < (l.zip m).length := by rw [List.length_zip]; omega
      simp only [List.getElem?_eq_getElem hi, List.getElem?_eq_getElem hi2,
        List.getElem?_eq_getElem hz, List.zip_cons_cons, ih, List.getElem_zip]
    · have hi2 : ¬ i < m.length := by omega
      have hz : ¬ i < (l.zip m).length := by rw [List.length_zip]; omega
      simp only [List.getElem?_eq_none_iff.mpr (Nat.le_of_not_lt hi),
        List.getElem?_eq_none_iff.mpr (Nat.le_of_not_lt hi2),
        List.getElem?_eq_none_iff.mpr (Nat.le_of_not_lt hz), ih]

theorem gather_perm {γ : Type} (l : List γ) (p : List Nat) (h : p.Perm (List.range l.length)) :
    (gather l p).Perm l := by
  refine (h.filterMap _).trans ?_
  have : ((List.range l.length).filterMap fun i => l[i]?) = l := by
    clear h
    induction l using List.reverseRecOn with
    | nil => rfl
    | append_singleton l a ih =>
      simp only [List.length_append, List.length_cons, List.length_nil, Nat.zero_add,
        List.range_succ, List.filterMap_append]
      have h1 : (List.range l.length).filterMap (fun i => (l ++ [a])[i]?) =
          (List.range l.length).filterMap (fun i => l[i]?) := by
        apply List.filterMap_congr
        intro i hi
        rw [List.getElem?_append_left (List.mem_range.mp hi)]
      rw [h1, ih]
      simp
  rw [this]

theorem length_gather {γ : Type} (l : List γ) (p : List Nat) (h : p.Perm (List.range l.length)) :
    (gather l p).length = l.length := (gather_perm l p h).length_eq

/-- C52: for `ordered=False`, if `argsort` returns a permutation that sorts the
time column and `sort` sorts, then the reordered columns contain exactly the
original samples, each keeping its own label, weight, time and delay, in order
of time. -/
theorem C52_reorder_keeps_samples {ξ υ ω τ : Type} [LinearOrder τ] (perm : List Nat)
    (sorted : List τ → List τ) (X : List ξ) (y : List υ) (w : List ω) (time delay : List τ)
    (hy : y.length = X.length) (hw : w.length = X.length) (ht : time.length = X.length)
    (hd : delay.length = X.length) (hperm : perm.Perm (List.range X.length))
    (harg : (gather time perm).Pairwise (· ≤ ·))
    (hsort : (sorted time).Pairwise (· ≤ ·) ∧ (sorted time).Perm time) :
    let (X', y', w', t', d') := reorder perm sorted X y w time delay
    ((X'.zip (y'.zip (w'.zip (t'.zip d')))).Perm (X.zip (y.zip (w.zip (time.zip delay))))) ∧
    t'.Pairwise (· ≤ ·) ∧ X'.length = X.length := by
  have hst : sorted time = gather time perm := by
    refine List.Perm.eq_of_pairwise (le := (· ≤ ·)) (fun a b _ _ => le_antisymm) hsort.1 harg ?_
    exact hsort.2.trans (gather_perm time perm (by rw [ht]; exact hperm)).symm
  simp only [reorder, hst]
  refine ⟨?_, harg, length_gather X perm hperm⟩
  rw [gather_zip time delay (by omega), gather_zip w _ (by rw [List.length_zip]; omega),
    gather_zip y _ (by rw [List.length_zip, List.length_zip]; omega),
    gather_zip X _ (by rw [List.length_zip, List.length_zip, List.length_zip]; omega)]
  apply gather_perm
  have : (X.zip (y.zip (w.zip (time.zip delay)))).length = X.length := by
    simp only [List.length_zip]; omega
  rw [this]; exact hperm

example : reorder [1, 0] (fun _ => [1, 2]) ["b", "a"] [20, 10] [2, 1] [2, 1] [7, 5] =
    (["a", "b"], [10, 20], [1, 2], [1, 2], [5, 7]) := by decide

end Verif.Streams
