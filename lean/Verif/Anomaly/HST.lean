import Verif.Common
import Mathlib.Data.List.Induction
import Mathlib.Data.List.Forall2
import Mathlib.Algebra.Order.Field.Basic
import Mathlib.Algebra.Order.BigOperators.Group.List

/-!
Model of `anomaly_detection/half_space_trees.py`; C45, C46, C77, C78, C79.

Simplifications: a row is a function from feature index to value; the random source is an
arbitrary function giving the result of the n-th `randint(0, n_features - 1)` call (numpy
excludes the upper bound); the initial work space is arbitrary.
-/

namespace Verif.Anomaly

/-- A row of features. -/
abbrev Row := Nat → ℚ

/-- `HalfSpaceTreeNode`, lines 532-576: depth, latest mass (`left_mass`), reference mass
(`right_mass`); internal nodes have a split and two children. -/
inductive T where
  | leaf (depth lat ref : Nat)
  | node (depth lat ref attr : Nat) (thr : ℚ) (left right : T)

/-! ### Construction -/

/-- Work space: lower and upper bounds per feature (mutable lists in the code). -/
structure Work where
  lo : Nat → ℚ
  hi : Nat → ℚ

/-- Item assignment. -/
def upd (f : Nat → ℚ) (i : Nat) (v : ℚ) : Nat → ℚ := fun j => if j = i then v else f j

/-- `build_tree`, lines 434-463; `rem = max_depth - current_depth`, `n` counts the calls of
the random source.  The work space is threaded as the code mutates it: the upper bound is
restored after the left subtree, the lower bound never is. -/
def build (draw : Nat → Nat) : (rem depth n : Nat) → Work → T × Work × Nat
  | 0, depth, n, w => (.leaf depth 0 0, w, n)
  | rem + 1, depth, n, w =>
    let f := draw n
    let p := (w.lo f + w.hi f) / 2
    let temp := w.hi f
    let l := build draw rem (depth + 1) (n + 1) ⟨w.lo, upd w.hi f p⟩
    let w2 : Work := ⟨upd l.2.1.lo f p, upd l.2.1.hi f temp⟩
    let r := build draw rem (depth + 1) l.2.2 w2
    (.node depth 0 0 f p l.1 r.1, r.2.1, r.2.2)

/-! ### Masses -/

/-- `_update_mass`, lines 481-509. -/
def T.updateMass (maxD : Nat) (x : Row) (ref : Bool) : T → T
  | .leaf d a b => if ref then .leaf d a (b + 1) else .leaf d (a + 1) b
  | .node d a b f p l r =>
    let a' := if ref then a else a + 1
    let b' := if ref then b + 1 else b
    if d < maxD then
      if x f > p then .node d a' b' f p l (r.updateMass maxD x ref)
      else .node d a' b' f p (l.updateMass maxD x ref) r
    else .node d a' b' f p l r

/-- `update_model`, lines 511-529. -/
def T.updateModel : T → T
  | .leaf d a b => .leaf d (if a ≠ 0 then 0 else a) (if b ≠ 0 ∨ a ≠ 0 then a else b)
  | .node d a b f p l r =>
    .node d (if a ≠ 0 then 0 else a) (if b ≠ 0 ∨ a ≠ 0 then a else b) f p l.updateModel r.updateModel

/-- The ensemble: window size, samples seen, learning flag, trees. -/
structure Forest where
  seen : Nat
  learning : Bool
  trees : List T

/-- `_partial_fit`, lines 146-171. -/
def fitOne (w maxD : Nat) (s : Forest) (x : Row) : Forest :=
  let trees := s.trees.map (·.updateMass maxD x (s.seen < w))
  let learning := if s.learning && (s.seen > w) then false else s.learning
  let trees := if s.seen % w = 0 then trees.map T.updateModel else trees
  ⟨s.seen + 1, learning, trees⟩

/-- `partial_fit` over a stream of rows from freshly built trees. -/
def fit (w maxD : Nat) (trees : List T) (xs : List Row) : Forest :=
  xs.foldl (fitOne w maxD) ⟨0, true, trees⟩

/-! ### Scores -/

/-- `_anomaly_score`, lines 408-432. -/
def T.score (limit : Nat) (x : Row) : T → ℚ
  | .leaf d _ b => b * 2 ^ d
  | .node d _ b f p l r =>
    if b ≤ limit then b * 2 ^ d
    else if x f > p then r.score limit x else l.score limit x

/-- `get_votes_for_instance`, lines 371-391: pair of votes for 0 and 1. -/
def T.votes (limit : Nat) (maxScore : ℚ) (learning : Bool) (x : Row) (t : T) : ℚ × ℚ :=
  if learning then (1/2, 1/2)
  else
    let a := 1 - t.score limit x / maxScore
    (1 - a, a)

/-- The running mean over the trees, lines 227-232 (`i` = number of trees already merged). -/
def meanVotes : Nat → Option (ℚ × ℚ) → List (ℚ × ℚ) → Option (ℚ × ℚ)
  | _, m, [] => m
  | i, none, v :: vs => meanVotes (i + 1) (some v) vs
  | i, some m, v :: vs =>
    meanVotes (i + 1) (some (m.1 + (v.1 - m.1) / (i + 1), m.2 + (v.2 - m.2) / (i + 1))) vs

/-- `normalize(..., norm='l1')` for one row. -/
def l1 (v : ℚ × ℚ) : ℚ × ℚ :=
  if |v.1| + |v.2| = 0 then v else (v.1 / (|v.1| + |v.2|), v.2 / (|v.1| + |v.2|))

/-- `predict_proba` for one row, lines 202-233. -/
def Forest.proba (w maxD limit : Nat) (s : Forest) (x : Row) : ℚ × ℚ :=
  match meanVotes 0 none (s.trees.map (T.votes limit (w * 2 ^ maxD) s.learning x)) with
  | none => (0, 0)
  | some v => l1 v

/-- `predict`, lines 173-200: every row is answered from the first row's probabilities. -/
def Forest.predict (w maxD limit : Nat) (thr : ℚ) (s : Forest) (rows : List Row) : List Nat :=
  rows.map fun _ => match (rows.map (s.proba w maxD limit))[0]? with
    | some p => if p.2 > thr then 1 else 0
    | none => 0

/-! ### Mass invariants -/

/-- Depths as built: internal nodes lie strictly above the maximal depth. -/
def T.Wf (maxD : Nat) : T → Prop
  | .leaf d _ _ => d ≤ maxD
  | .node d _ _ _ _ l r => d < maxD ∧ l.Wf maxD ∧ r.Wf maxD

/-- Specification: the tree in which the masses of every node count the given rows routed
through it (rows with `x[attr] > thr` go right). -/
def T.fill (lat ref : List Row) : T → T
  | .leaf d _ _ => .leaf d lat.length ref.length
  | .node d _ _ f p l r => .node d lat.length ref.length f p
      (l.fill (lat.filter fun x => !(decide (x f > p))) (ref.filter fun x => !(decide (x f > p))))
      (r.fill (lat.filter fun x => decide (x f > p)) (ref.filter fun x => decide (x f > p)))

theorem build_wf (draw : Nat → Nat) (rem depth n : Nat) (w : Work) :
    (build draw rem depth n w).1.Wf (depth + rem) ∧
    (build draw rem depth n w).1.fill [] [] = (build draw rem depth n w).1 := by
  induction rem generalizing depth n w with
  | zero => exact ⟨le_refl _, rfl⟩
  | succ rem ih =>
    simp only [build, T.Wf, T.fill, List.filter_nil, List.length_nil]
    have e : depth + (rem + 1) = depth + 1 + rem := by omega
    rw [e]
    refine ⟨⟨by omega, (ih _ _ _).1, (ih _ _ _).1⟩, ?_⟩
    rw [(ih _ _ _).2, (ih _ _ _).2]

theorem updateMass_fill (maxD : Nat) (x : Row) (ref : Bool) (t : T) (h : t.Wf maxD) (la re : List Row) :
    (t.fill la re).updateMass maxD x ref =
      if ref then t.fill la (re ++ [x]) else t.fill (la ++ [x]) re := by
  induction t generalizing la re with
  | leaf d a b => cases ref <;> simp [T.fill, T.updateMass]
  | node d a b f p l r ihl ihr =>
    obtain ⟨h1, h2, h3⟩ := h
    cases ref <;> by_cases hc : x f > p <;>
      simp [T.fill, T.updateMass, h1, hc, List.filter_append, ihl h2, ihr h3]

theorem updateModel_fill (t : T) (la re : List Row) : (t.fill la re).updateModel = t.fill [] la := by
  induction t generalizing la re with
  | leaf d a b =>
    simp only [T.fill, T.updateModel, List.length_nil]
    congr 1
    · split_ifs <;> omega
    · split_ifs with h
      · rfl
      · omega
  | node d a b f p l r ihl ihr =>
    simp only [T.fill, T.updateModel, List.length_nil, ihl, ihr, List.filter_nil]
    congr 1
    · split_ifs <;> omega
    · split_ifs with h
      · rfl
      · omega

/-- Rows whose counts are the reference masses after the stream `xs`, as the code computes
it; `k` is the number of the last update. -/
def refRows (w : Nat) (xs : List Row) : List Row :=
  let n := xs.length
  let k := (n - 1) / w
  if k = 0 then xs.drop 1
  else if k = 1 then (xs.drop w).take 1
  else (xs.drop ((k - 1) * w + 1)).take w

/-- Rows whose counts are the latest masses. -/
def latRows (w : Nat) (xs : List Row) : List Row :=
  let k := (xs.length - 1) / w
  if k = 0 then [] else xs.drop (k * w + 1)

theorem fit_spec (w maxD : Nat) (hw : 0 < w) (trees : List T) (hwf : ∀ t ∈ trees, t.Wf maxD)
    (hf : ∀ t ∈ trees, t.fill [] [] = t) (xs : List Row) :
    (fit w maxD trees xs).seen = xs.length ∧
    ((fit w maxD trees xs).learning = decide (xs.length ≤ w + 1)) ∧
    (fit w maxD trees xs).trees = trees.map fun t => t.fill (latRows w xs) (refRows w xs) := by
  induction xs using List.reverseRecOn with
  | nil =>
    refine ⟨rfl, by simp [fit], ?_⟩
    simp only [fit, List.foldl_nil, refRows, latRows, List.length_nil, Nat.zero_sub, Nat.zero_div, if_true,
      List.drop_nil]
    conv_lhs => rw [← List.map_id trees]
    apply List.map_congr_left
    intro t ht
    exact (hf t ht).symm
  | append_singleton xs x ih =>
    obtain ⟨h1, h2, h3⟩ := ih
    have e : fit w maxD trees (xs ++ [x]) = fitOne w maxD (fit w maxD trees xs) x := by
      rw [fit, List.foldl_append]; rfl
    rw [e]
    set s := fit w maxD trees xs with hs
    refine ⟨by simp [fitOne, h1], ?_, ?_⟩
    · simp only [fitOne, h1, h2, List.length_append, List.length_singleton]
      by_cases hc : xs.length ≤ w
      · have a1 : decide (xs.length > w) = false := by simpa using hc
        rw [a1, Bool.and_false, if_neg Bool.false_ne_true]
        rw [decide_eq_true (by omega : xs.length ≤ w + 1), decide_eq_true (by omega : xs.length + 1 ≤ w + 1)]
      · rw [decide_eq_false (by omega : ¬ xs.length + 1 ≤ w + 1), decide_eq_true (by omega : xs.length > w)]
        by_cases hc2 : xs.length ≤ w + 1
        · rw [decide_eq_true hc2]; rfl
        · rw [decide_eq_false hc2]; rfl
    · simp only [fitOne, h1, h3]
      set n := xs.length with hn
      have hmap : (trees.map fun t => t.fill (latRows w xs) (refRows w xs)).map
          (fun t => t.updateMass maxD x (decide (n < w))) =
          trees.map fun t => if n < w then t.fill (latRows w xs) (refRows w xs ++ [x])
            else t.fill (latRows w xs ++ [x]) (refRows w xs) := by
        rw [List.map_map]
        apply List.map_congr_left
        intro t ht
        simp only [Function.comp]
        rw [updateMass_fill maxD x _ t (hwf t ht)]
        by_cases hc : n < w
        · simp [hc]
        · simp [hc]
      have hlen : (xs ++ [x]).length - 1 = n := by simp [hn]
      rw [hmap]
      have hdm := Nat.div_add_mod n w
      have hml := Nat.mod_lt n hw
      by_cases hm : n % w = 0
      · rw [if_pos hm, List.map_map]
        apply List.map_congr_left
        intro t _
        simp only [Function.comp]
        by_cases hc : n < w
        · -- only n = 0
          have hn0 : n = 0 := by rw [Nat.mod_eq_of_lt hc] at hm; exact hm
          rw [if_pos hc, updateModel_fill]
          have : xs = [] := List.length_eq_zero_iff.mp (by omega)
          subst this
          simp [latRows, refRows]
        · rw [if_neg hc, updateModel_fill]
          simp only [latRows, refRows, hlen]
          have hk : 0 < n / w := Nat.div_pos (by omega) hw
          have hkw : n / w * w = n := by rw [Nat.mul_comm]; omega
          have hlat0 : (xs ++ [x]).drop (n / w * w + 1) = [] := by
            rw [hkw]; apply List.drop_eq_nil_of_le; simp [hn]
          rw [if_neg (by omega : ¬ n / w = 0), hlat0, if_neg (by omega : ¬ n / w = 0)]
          congr 1
          -- the previous latest rows followed by x
          have hprev : (n - 1) / w = n / w - 1 := by
            have h4 : n - 1 = w * (n / w - 1) + (w - 1) := by
              have h6 : w * (n / w - 1) = w * (n / w) - w := by rw [Nat.mul_sub, Nat.mul_one]
              have h7 : w * 1 ≤ w * (n / w) := Nat.mul_le_mul_left w hk
              rw [h6]
              omega
            rw [h4, Nat.add_comm, Nat.add_mul_div_left _ _ hw, Nat.div_eq_of_lt (by omega)]
            omega
          rw [hprev]
          by_cases hk1 : n / w = 1
          · rw [hk1]
            have hnw : n = w := by rw [hk1] at hkw; omega
            simp only [Nat.sub_self, if_true]
            rw [List.drop_left' (by omega)]; rfl
          · rw [if_neg (by omega), if_neg hk1]
            rw [List.drop_append_of_le_length (by
              have h6 : (n / w - 1) * w = n / w * w - w := by rw [Nat.sub_mul, Nat.one_mul]
              omega)]
            rw [List.take_of_length_le]
            have h6 : (n / w - 1) * w = n / w * w - w := by rw [Nat.sub_mul, Nat.one_mul]
            simp only [List.length_append, List.length_drop, List.length_singleton]
            omega
      · rw [if_neg hm]
        apply List.map_congr_left
        intro t _
        simp only [latRows, refRows, hlen]
        have hn1 : 0 < n := by
          rcases Nat.eq_zero_or_pos n with h0 | h0
          · rw [h0] at hm; simp at hm
          · exact h0
        have hprev : (n - 1) / w = n / w := by
          have h4 : n - 1 = w * (n / w) + (n % w - 1) := by omega
          rw [h4, Nat.add_comm, Nat.add_mul_div_left _ _ hw, Nat.div_eq_of_lt (by omega)]
          omega
        rw [hprev]
        by_cases hc : n < w
        · rw [if_pos hc, Nat.div_eq_of_lt hc]
          simp only [if_true]
          rw [List.drop_append_of_le_length (by omega)]
        · rw [if_neg hc]
          have hk : 0 < n / w := Nat.div_pos (by omega) hw
          have hkw : w * (n / w) = n / w * w := Nat.mul_comm _ _
          have hk0 : ¬ n / w = 0 := by omega
          simp only [if_neg hk0]
          congr 1
          · rw [List.drop_append_of_le_length (by omega)]
          · by_cases hk1 : n / w = 1
            · have hnw : w + n % w = n := by rw [hk1] at hdm; omega
              rw [if_pos hk1, if_pos hk1, List.drop_append_of_le_length (by omega),
                List.take_append_of_le_length (by simp only [List.length_drop]; omega)]
            · rw [if_neg hk1, if_neg hk1]
              have h6 : (n / w - 1) * w = n / w * w - w := by rw [Nat.sub_mul, Nat.one_mul]
              have h7 : w * 2 ≤ w * (n / w) := Nat.mul_le_mul_left w (by omega)
              rw [List.drop_append_of_le_length (by omega),
                List.take_append_of_le_length (by simp only [List.length_drop]; omega)]

/-- The trees of a fresh ensemble (lines 254-262), each with its own random draws and
work space. -/
def buildTrees (maxD : Nat) (src : List ((Nat → Nat) × Work)) : List T :=
  src.map fun a => (build a.1 (maxD - 1) 1 0 a.2).1

theorem buildTrees_ok (maxD : Nat) (hd : 0 < maxD) (src : List ((Nat → Nat) × Work)) :
    (∀ t ∈ buildTrees maxD src, t.Wf maxD) ∧ ∀ t ∈ buildTrees maxD src, t.fill [] [] = t := by
  constructor
  · intro t ht
    obtain ⟨w, _, rfl⟩ := List.mem_map.mp ht
    have := (build_wf w.1 (maxD - 1) 1 0 w.2).1
    rwa [show 1 + (maxD - 1) = maxD by omega] at this
  · intro t ht
    obtain ⟨w, _, rfl⟩ := List.mem_map.mp ht
    exact (build_wf w.1 (maxD - 1) 1 0 w.2).2

/-- Latest mass of the root. -/
def T.lat : T → Nat
  | .leaf _ a _ => a
  | .node _ a _ _ _ _ _ => a
/-- Reference mass of the root. -/
def T.ref : T → Nat
  | .leaf _ _ b => b
  | .node _ _ b _ _ _ _ => b

/-- Specification: at every internal node the masses of the children add up. -/
def T.Adds : T → Prop
  | .leaf _ _ _ => True
  | .node _ a b _ _ l r => a = l.lat + r.lat ∧ b = l.ref + r.ref ∧ l.Adds ∧ r.Adds

theorem lat_fill (t : T) (la re : List Row) : (t.fill la re).lat = la.length := by cases t <;> rfl
theorem ref_fill (t : T) (la re : List Row) : (t.fill la re).ref = re.length := by cases t <;> rfl

theorem filter_split (l : List Row) (q : Row → Bool) :
    l.length = (l.filter fun x => !(q x)).length + (l.filter q).length := by
  induction l with
  | nil => rfl
  | cons a l ih => cases h : q a <;> simp [h] <;> omega

theorem fill_adds (t : T) (la re : List Row) : (t.fill la re).Adds := by
  induction t generalizing la re with
  | leaf d a b => trivial
  | node d a b f p l r ihl ihr =>
    simp only [T.fill, T.Adds, lat_fill, ref_fill]
    exact ⟨filter_split la fun x => decide (x f > p), filter_split re fun x => decide (x f > p),
      ihl _ _, ihr _ _⟩

/-- C46 (what holds): after any stream, in every tree and at every node, the masses count
rows of the stream routed through the node - the same rows for all nodes - and the children
add up.  From the third window on, with `k ≥ 2` the number of the last exchange, the
reference rows are the `w` rows number `(k-1)w + 1, ..., kw` and the latest rows those after. -/
theorem C46_masses_partial (w maxD : Nat) (hw : 0 < w) (hd : 0 < maxD) (src : List ((Nat → Nat) × Work))
    (xs : List Row) :
    ∃ la re : List Row, (fit w maxD (buildTrees maxD src) xs).trees =
        (buildTrees maxD src).map (fun t => t.fill la re) ∧
      (∀ t ∈ (fit w maxD (buildTrees maxD src) xs).trees, t.Adds) ∧ re.length ≤ w ∧ la.length < w ∧
      ∀ k, 2 ≤ k → k * w < xs.length → xs.length ≤ (k + 1) * w →
        re = (xs.drop ((k - 1) * w + 1)).take w ∧ la = xs.drop (k * w + 1) := by
  obtain ⟨h1, h2⟩ := buildTrees_ok maxD hd src
  obtain ⟨_, _, h3⟩ := fit_spec w maxD hw _ h1 h2 xs
  refine ⟨latRows w xs, refRows w xs, h3, ?_, ?_, ?_, ?_⟩
  · rw [h3]
    intro t ht
    obtain ⟨u, _, rfl⟩ := List.mem_map.mp ht
    exact fill_adds _ _ _
  · have hdm := Nat.div_add_mod (xs.length - 1) w
    have hml := Nat.mod_lt (xs.length - 1) hw
    simp only [refRows]
    split_ifs with hk hk
    · rw [hk] at hdm
      simp only [List.length_drop]; omega
    · simp only [List.length_take]; omega
    · simp only [List.length_take]; omega
  · have hdm := Nat.div_add_mod (xs.length - 1) w
    have hml := Nat.mod_lt (xs.length - 1) hw
    have hcm : w * ((xs.length - 1) / w) = (xs.length - 1) / w * w := Nat.mul_comm _ _
    simp only [latRows]
    split_ifs with hk
    · simpa using hw
    · simp only [List.length_drop]; omega
  · intro k hk hlo hhi
    have hkk : (xs.length - 1) / w = k := by
      apply Nat.div_eq_of_lt_le
      · omega
      · have : (k + 1) * w = k * w + w := by rw [Nat.add_mul, Nat.one_mul]
        omega
    simp only [latRows, refRows, hkk]
    rw [if_neg (by omega), if_neg (by omega), if_neg (by omega)]
    exact ⟨rfl, rfl⟩

/-- C46 (violated): during the whole second window (more than `w`, at most `2w` rows seen)
the reference profile used for scoring is made of a single row, for every stream and every
tree; and before that the first row of the stream is missing from it. -/
theorem C46_reference_of_one_row_violated (w maxD : Nat) (hw : 0 < w) (hd : 0 < maxD)
    (src : List ((Nat → Nat) × Work)) (xs : List Row) :
    (w < xs.length → xs.length ≤ 2 * w →
      ∀ t ∈ (fit w maxD (buildTrees maxD src) xs).trees, t.ref = 1) ∧
    (xs.length ≤ w → ∀ t ∈ (fit w maxD (buildTrees maxD src) xs).trees, t.ref = xs.length - 1) := by
  obtain ⟨h1, h2⟩ := buildTrees_ok maxD hd src
  obtain ⟨_, _, h3⟩ := fit_spec w maxD hw _ h1 h2 xs
  rw [h3]
  constructor
  · intro ha hb t ht
    obtain ⟨u, _, rfl⟩ := List.mem_map.mp ht
    rw [ref_fill]
    have hk : (xs.length - 1) / w = 1 := by
      apply Nat.div_eq_of_lt_le <;> omega
    simp only [refRows, hk]
    simp only [if_true, if_neg one_ne_zero, List.length_take, List.length_drop]
    omega
  · intro ha t ht
    obtain ⟨u, _, rfl⟩ := List.mem_map.mp ht
    rw [ref_fill]
    have hk : (xs.length - 1) / w = 0 := Nat.div_eq_of_lt (by omega)
    simp only [refRows, hk, if_true, List.length_drop]

/-- One tree of depth 2 splitting feature 0 at 1/2; window 3; rows valued 0,1,0,1,0,... -/
def demoTrees : List T := buildTrees 2 [(fun _ => 0, ⟨fun _ => 0, fun _ => 1⟩)]

example : ((fit 3 2 demoTrees ((List.range 5).map fun i : Nat => fun _ => (i % 2 : Nat))).trees.map T.ref = [1]) ∧
    ((fit 3 2 demoTrees ((List.range 8).map fun i : Nat => fun _ => (i % 2 : Nat))).trees.map T.ref = [3]) := by
  decide +kernel

/-! ### Prediction -/

/-- The classification a row deserves: by its own anomaly probability. -/
def Forest.classify (w maxD limit : Nat) (thr : ℚ) (s : Forest) (x : Row) : Nat :=
  if (s.proba w maxD limit x).2 > thr then 1 else 0

/-- C45 (what holds): a single row is classified by its own score. -/
theorem C45_single_row_partial (w maxD limit : Nat) (thr : ℚ) (s : Forest) (x : Row) :
    s.predict w maxD limit thr [x] = [s.classify w maxD limit thr x] := by
  simp [Forest.predict, Forest.classify]

/-- C45 (violated): in a batch every row gets the class of the first row. -/
theorem C45_all_rows_as_first_violated (w maxD limit : Nat) (thr : ℚ) (s : Forest) (x : Row) (rows : List Row) :
    s.predict w maxD limit thr (x :: rows) =
      List.replicate (rows.length + 1) (s.classify w maxD limit thr x) := by
  simp only [Forest.predict, Forest.classify, List.map_cons, List.getElem?_cons_zero]
  rw [List.replicate_succ]
  congr 1
  rw [List.map_const']

/-- C45 (violated): a reachable forest and two rows that deserve different classes. -/
theorem C45_batch_differs_violated :
    ∃ (xs : List Row) (a b : Row),
      (fit 3 2 demoTrees xs).classify 3 2 0 (1/2) a = 1 ∧ (fit 3 2 demoTrees xs).classify 3 2 0 (1/2) b = 0 ∧
      (fit 3 2 demoTrees xs).predict 3 2 0 (1/2) [b, a] = [0, 0] := by
  refine ⟨List.replicate 9 fun _ => 0, fun _ => 1, fun _ => 0, ?_, ?_, ?_⟩ <;> decide +kernel

/-! ### Probabilities -/

theorem score_bound (w maxD limit : Nat) (x : Row) (t : T) (h : t.Wf maxD) (la re : List Row)
    (hre : re.length ≤ w) :
    0 ≤ (t.fill la re).score limit x ∧ (t.fill la re).score limit x ≤ w * 2 ^ maxD := by
  have key : ∀ (n d : Nat), n ≤ w → d ≤ maxD → (0 : ℚ) ≤ n * 2 ^ d ∧ (n : ℚ) * 2 ^ d ≤ w * 2 ^ maxD := by
    intro n d hn hd
    refine ⟨by positivity, ?_⟩
    apply mul_le_mul
    · exact_mod_cast hn
    · exact pow_le_pow_right₀ (by norm_num) hd
    · positivity
    · positivity
  induction t generalizing la re with
  | leaf d a b => exact key _ _ hre h
  | node d a b f p l r ihl ihr =>
    obtain ⟨h1, h2, h3⟩ := h
    simp only [T.fill, T.score]
    split_ifs
    · exact key _ _ hre (by omega)
    · exact ihr h3 _ _ (le_trans (List.length_filter_le _ _) hre)
    · exact ihl h2 _ _ (le_trans (List.length_filter_le _ _) hre)

theorem meanVotes_some (i : Nat) (m : ℚ × ℚ) (vs : List (ℚ × ℚ)) :
    meanVotes (i + 1) (some m) vs =
      some ((m.1 * (i + 1) + (vs.map Prod.fst).sum) / (i + 1 + vs.length),
            (m.2 * (i + 1) + (vs.map Prod.snd).sum) / (i + 1 + vs.length)) := by
  induction vs generalizing i m with
  | nil =>
    have : ((i : ℚ) + 1) ≠ 0 := by positivity
    simp only [meanVotes, List.map_nil, List.sum_nil, add_zero, List.length_nil, Nat.cast_zero]
    rw [mul_div_assoc, mul_div_assoc, div_self this, mul_one, mul_one]
  | cons v vs ih =>
    rw [meanVotes, ih]
    simp only [List.map_cons, List.sum_cons, List.length_cons, Nat.cast_add, Nat.cast_one]
    have h1 : ((i : ℚ) + 1 + 1) ≠ 0 := by positivity
    have h2 : ((i : ℚ) + 1 + (vs.length + 1)) ≠ 0 := by positivity
    have h3 : ((i : ℚ) + 1 + 1 + vs.length) ≠ 0 := by positivity
    have e : (i : ℚ) + 1 + (vs.length + 1) = i + 1 + 1 + vs.length := by ring
    rw [e]
    congr 2
    · field_simp; ring
    · field_simp; ring

/-- Specification: the nodes (depth, reference mass) on the way of a row from the root to a
leaf; rows above the threshold go right, as when masses are counted (`fill`). -/
def T.route (x : Row) : T → List (Nat × Nat)
  | .leaf d _ b => [(d, b)]
  | .node d _ b f p l r => (d, b) :: if p < x f then r.route x else l.route x

theorem route_ne (x : Row) (t : T) : t.route x ≠ [] := by cases t <;> simp [T.route]

/-- C79: the score of a tree is the reference mass, times two to the depth, of the first
node on the row's way whose reference mass is at most the size limit, or of the leaf if
there is no such node. -/
theorem C79_score_is_scaled_mass (limit : Nat) (x : Row) (t : T) :
    ∃ pre d b post, t.route x = pre ++ (d, b) :: post ∧ (∀ a ∈ pre, limit < a.2) ∧
      (b ≤ limit ∨ post = []) ∧ t.score limit x = b * 2 ^ d := by
  induction t with
  | leaf d a b => exact ⟨[], d, b, [], rfl, by simp, .inr rfl, rfl⟩
  | node d a b f p l r ihl ihr =>
    by_cases hb : b ≤ limit
    · exact ⟨[], d, b, _, rfl, by simp, .inl hb, by rw [T.score, if_pos hb]⟩
    · by_cases hx : p < x f
      · obtain ⟨pre, d', b', post, h1, h2, h3, h4⟩ := ihr
        refine ⟨(d, b) :: pre, d', b', post, ?_, ?_, h3, ?_⟩
        · rw [T.route, if_pos hx, h1]; rfl
        · intro a ha
          rcases List.mem_cons.mp ha with rfl | ha
          · exact not_le.mp hb
          · exact h2 a ha
        · rw [T.score, if_neg hb]; simp only [gt_iff_lt, hx, if_true]; exact h4
      · obtain ⟨pre, d', b', post, h1, h2, h3, h4⟩ := ihl
        refine ⟨(d, b) :: pre, d', b', post, ?_, ?_, h3, ?_⟩
        · rw [T.route, if_neg hx, h1]; rfl
        · intro a ha
          rcases List.mem_cons.mp ha with rfl | ha
          · exact not_le.mp hb
          · exact h2 a ha
        · rw [T.score, if_neg hb]; simp only [gt_iff_lt, hx, if_false]; exact h4

example : (T.node 0 3 9 0 (1/2) (.leaf 1 1 4) (.leaf 1 2 5)).score 2 (fun _ => 1/2) = 8 := by
  norm_num [T.score]

/-- C79: after any stream, for any number of trees (at least one), `predict_proba` of a row
is a pair of numbers in [0,1] that add up to 1; its second entry is the mean over the trees
of `1 - score / (w 2^depth)` once learning is over and 1/2 before. -/
theorem C79_probabilities (w maxD limit : Nat) (hw : 0 < w) (hd : 0 < maxD)
    (src : List ((Nat → Nat) × Work)) (hne : src ≠ []) (xs : List Row) (x : Row) :
    let s := fit w maxD (buildTrees maxD src) xs
    let p := s.proba w maxD limit x
    0 ≤ p.1 ∧ 0 ≤ p.2 ∧ p.1 + p.2 = 1 ∧
    p.2 = (s.trees.map fun t : T => if xs.length ≤ w + 1 then (1/2 : ℚ)
      else 1 - t.score limit x / ((w : ℚ) * 2 ^ maxD)).sum / (src.length : ℚ) := by
  intro s p
  obtain ⟨h1, h2⟩ := buildTrees_ok maxD hd src
  obtain ⟨_, hl, h3⟩ := fit_spec w maxD hw _ h1 h2 xs
  have hre : (refRows w xs).length ≤ w := by
    have hdm := Nat.div_add_mod (xs.length - 1) w
    have hml := Nat.mod_lt (xs.length - 1) hw
    simp only [refRows]
    split_ifs with hk hk
    · rw [hk] at hdm
      simp only [List.length_drop]; omega
    · simp only [List.length_take]; omega
    · simp only [List.length_take]; omega
  have hs : s.trees = (buildTrees maxD src).map fun t => t.fill (latRows w xs) (refRows w xs) := h3
  have hsl : s.learning = decide (xs.length ≤ w + 1) := hl
  have hlen : s.trees.length = src.length := by rw [hs]; simp [buildTrees]
  have hM : (0 : ℚ) < w * 2 ^ maxD := by
    have : (0 : ℚ) < w := by exact_mod_cast hw
    positivity
  -- every vote is a distribution
  have hv : ∀ t ∈ s.trees, let v := t.votes limit (w * 2 ^ maxD) s.learning x
      0 ≤ v.1 ∧ 0 ≤ v.2 ∧ v.1 = 1 - v.2 ∧
      v.2 = if xs.length ≤ w + 1 then 1/2 else 1 - t.score limit x / (w * 2 ^ maxD) := by
    intro t ht
    simp only [T.votes, hsl]
    by_cases hc : xs.length ≤ w + 1
    · simp only [hc, decide_true, if_true]; norm_num
    · simp only [hc, decide_false, Bool.false_eq_true, if_false]
      rw [hs] at ht
      obtain ⟨u, hu, rfl⟩ := List.mem_map.mp ht
      obtain ⟨b1, b2⟩ := score_bound w maxD limit x u (h1 u hu) (latRows w xs) (refRows w xs) hre
      have b3 : (u.fill (latRows w xs) (refRows w xs)).score limit x / (w * 2 ^ maxD) ≤ 1 := by
        rw [div_le_one hM]; exact b2
      have b4 : 0 ≤ (u.fill (latRows w xs) (refRows w xs)).score limit x / (w * 2 ^ maxD) := div_nonneg b1 (le_of_lt hM)
      refine ⟨by linarith, by linarith, trivial, trivial⟩
  cases htr : s.trees with
  | nil =>
    rw [htr] at hlen
    exact absurd (List.length_eq_zero_iff.mp hlen.symm) hne
  | cons t ts =>
    set V := s.trees.map (T.votes limit (w * 2 ^ maxD) s.learning x) with hV
    have hVd : ∀ v ∈ V, 0 ≤ v.1 ∧ 0 ≤ v.2 ∧ v.1 = 1 - v.2 := by
      intro v hv'
      obtain ⟨u, hu, rfl⟩ := List.mem_map.mp hv'
      have := hv u hu
      exact ⟨this.1, this.2.1, this.2.2.1⟩
    have hVsnd : (V.map Prod.snd).sum = (s.trees.map fun t : T => if xs.length ≤ w + 1 then (1/2 : ℚ)
        else 1 - t.score limit x / ((w : ℚ) * 2 ^ maxD)).sum := by
      congr 1
      rw [hV, List.map_map]
      apply List.map_congr_left
      intro u hu
      exact (hv u hu).2.2.2
    have hVlen : V.length = src.length := by rw [hV, List.length_map, hlen]
    have hsrc : (0 : ℚ) < src.length := by exact_mod_cast List.length_pos_of_ne_nil hne
    have hVfst : (V.map Prod.fst).sum = src.length - (V.map Prod.snd).sum := by
      rw [← hVlen]
      have : ∀ l : List (ℚ × ℚ), (∀ v ∈ l, v.1 = 1 - v.2) →
          (l.map Prod.fst).sum = (l.length : ℚ) - (l.map Prod.snd).sum := by
        intro l
        induction l with
        | nil => intro _; simp
        | cons a l ih =>
          intro h
          simp only [List.map_cons, List.sum_cons, List.length_cons, Nat.cast_add, Nat.cast_one]
          rw [ih fun v hv => h v (by simp [hv]), h a (by simp)]
          ring
      exact this V fun v hv' => (hVd v hv').2.2
    have hmean : meanVotes 0 none V = some ((V.map Prod.fst).sum / src.length, (V.map Prod.snd).sum / src.length) := by
      rw [hV, htr, List.map_cons, meanVotes, meanVotes_some]
      have hl2 : ((0 : ℕ) : ℚ) + 1 + (ts.map (T.votes limit (w * 2 ^ maxD) s.learning x)).length = src.length := by
        rw [← hlen, htr]; simp; ring
      rw [hl2]
      simp only [List.map_cons, List.sum_cons, Nat.cast_zero, zero_add, mul_one]
    have n1 : 0 ≤ (V.map Prod.fst).sum := List.sum_nonneg fun a ha => by
      obtain ⟨v, hv', rfl⟩ := List.mem_map.mp ha
      exact (hVd v hv').1
    have n2 : 0 ≤ (V.map Prod.snd).sum := List.sum_nonneg fun a ha => by
      obtain ⟨v, hv', rfl⟩ := List.mem_map.mp ha
      exact (hVd v hv').2.1
    have m1 : 0 ≤ (V.map Prod.fst).sum / src.length := div_nonneg n1 (le_of_lt hsrc)
    have m2 : 0 ≤ (V.map Prod.snd).sum / src.length := div_nonneg n2 (le_of_lt hsrc)
    have m3 : (V.map Prod.fst).sum / src.length + (V.map Prod.snd).sum / src.length = 1 := by
      rw [← add_div, hVfst, sub_add_cancel, div_self (ne_of_gt hsrc)]
    have hp : p = ((V.map Prod.fst).sum / src.length, (V.map Prod.snd).sum / src.length) := by
      show s.proba w maxD limit x = _
      rw [Forest.proba, ← hV, hmean]
      simp only [l1, abs_of_nonneg m1, abs_of_nonneg m2, m3, one_ne_zero, if_false, div_one]
    rw [← htr, ← hVsnd, hp]
    exact ⟨m1, m2, m3, rfl⟩

example : (fit 3 2 demoTrees (List.replicate 9 fun _ => 0)).proba 3 2 0 (fun _ => 1) = (0, 1) ∧
    (fit 3 2 demoTrees (List.replicate 9 fun _ => 0)).proba 3 2 0 (fun _ => 0) = (1, 0) := by decide +kernel

/-! ### Splits -/

/-- Specification: the tree halves its work space `[lo, hi]` at every node. -/
def T.Halves (lo hi : Nat → ℚ) : T → Prop
  | .leaf _ _ _ => True
  | .node _ _ _ f p l r => p = (lo f + hi f) / 2 ∧ l.Halves lo (upd hi f p) ∧ r.Halves (upd lo f p) hi

/-- Specification: every split lies in the node's part of the work space, in its upper half. -/
def T.InUpperHalf (lo hi : Nat → ℚ) : T → Prop
  | .leaf _ _ _ => True
  | .node _ _ _ f p l r => (lo f + hi f) / 2 ≤ p ∧ p ≤ hi f ∧ l.InUpperHalf lo (upd hi f p) ∧
      r.InUpperHalf (upd lo f p) hi

/-- C77 (violated): with three features, depth 3 and the unit work space, splitting on
feature 0 first and then on feature 1 in both halves does not halve: the second half is cut
at 3/4. -/
theorem C77_lower_bound_not_restored_violated :
    ∃ draw : Nat → Nat, (∀ n, draw n < 3 - 1) ∧
      ¬ (build draw 2 1 0 ⟨fun _ => 0, fun _ => 1⟩).1.Halves (fun _ => 0) (fun _ => 1) := by
  refine ⟨fun n => if n = 0 then 0 else 1, ?_, ?_⟩
  · intro n; dsimp only; split_ifs <;> omega
  · intro h
    have h2 := h.2.2.1
    revert h2
    simp [build, upd]
    norm_num

/-- C77 (what holds): every split point lies in the node's part of the work space, at or
above its middle. -/
theorem C77_splits_inside_partial (draw : Nat → Nat) (rem depth n : Nat) (lo hi : Nat → ℚ)
    (h : ∀ f, lo f ≤ hi f) : (build draw rem depth n ⟨lo, hi⟩).1.InUpperHalf lo hi := by
  have gen : ∀ (rem depth n : Nat) (lt lc hi : Nat → ℚ), (∀ f, lt f ≤ lc f) → (∀ f, lc f ≤ hi f) →
      (build draw rem depth n ⟨lc, hi⟩).1.InUpperHalf lt hi ∧
      (build draw rem depth n ⟨lc, hi⟩).2.1.hi = hi ∧
      (∀ f, lc f ≤ (build draw rem depth n ⟨lc, hi⟩).2.1.lo f) ∧
      ∀ f, (build draw rem depth n ⟨lc, hi⟩).2.1.lo f ≤ hi f := by
    intro rem
    induction rem with
    | zero => intro depth n lt lc hi h1 h2; exact ⟨trivial, rfl, fun _ => le_refl _, h2⟩
    | succ rem ih =>
      intro depth n lt lc hi h1 h2
      simp only [build]
      set f := draw n with hf
      set p := (lc f + hi f) / 2 with hp
      have hpl : lc f ≤ p := by have := h2 f; rw [hp]; linarith
      have hph : p ≤ hi f := by have := h2 f; rw [hp]; linarith
      obtain ⟨a1, a2, a3, a4⟩ := ih (depth + 1) (n + 1) lt lc (upd hi f p) h1 (by
        intro g; unfold upd; split_ifs with hg
        · subst hg; exact hpl
        · exact h2 g)
      set L := build draw rem (depth + 1) (n + 1) ⟨lc, upd hi f p⟩ with hL
      have e : upd L.2.1.hi f (hi f) = hi := by
        rw [a2]; funext g; unfold upd; split_ifs with hg <;> simp_all
      have b4 : ∀ g, L.2.1.lo g ≤ hi g := by
        intro g
        have := a4 g
        unfold upd at this
        split_ifs at this with hg
        · subst hg; linarith
        · exact this
      obtain ⟨c1, c2, c3, c4⟩ := ih (depth + 1) L.2.2 (upd lt f p) (upd L.2.1.lo f p) hi (by
        intro g; unfold upd; split_ifs with hg
        · exact le_refl _
        · exact le_trans (h1 g) (a3 g)) (by
        intro g; unfold upd; split_ifs with hg
        · subst hg; exact hph
        · exact b4 g)
      rw [e]
      refine ⟨⟨?_, hph, a1, c1⟩, c2, ?_, c4⟩
      · have := h1 f; rw [hp]; linarith
      · intro g
        refine le_trans ?_ (c3 g)
        unfold upd
        split_ifs with hg
        · subst hg; exact hpl
        · exact a3 g
  exact (gen rem depth n lo lo hi (fun _ => le_refl _) h).1

example : (build (fun n => n % 2) 2 1 0 ⟨fun _ => 0, fun _ => 1⟩).1.InUpperHalf (fun _ => 0) (fun _ => 1) :=
  C77_splits_inside_partial _ _ _ _ _ _ fun _ => by norm_num

/-- All split attributes of a tree satisfy `P`. -/
def T.Attrs (P : Nat → Prop) : T → Prop
  | .leaf _ _ _ => True
  | .node _ _ _ f _ l r => P f ∧ l.Attrs P ∧ r.Attrs P

theorem build_attrs (P : Nat → Prop) (draw : Nat → Nat) (h : ∀ n, P (draw n)) (rem depth n : Nat) (w : Work) :
    (build draw rem depth n w).1.Attrs P := by
  induction rem generalizing depth n w with
  | zero => trivial
  | succ rem ih => exact ⟨h n, ih _ _ _, ih _ _ _⟩

/-- Rows equal on the first `m` features. -/
def Agree (m : Nat) (x y : Row) : Prop := ∀ f, f < m → x f = y f

theorem updateMass_agree (maxD m : Nat) (x y : Row) (h : Agree m x y) (ref : Bool) (t : T)
    (ha : t.Attrs (· < m)) : t.updateMass maxD x ref = t.updateMass maxD y ref ∧
      (t.updateMass maxD x ref).Attrs (· < m) := by
  induction t with
  | leaf d a b => cases ref <;> simp [T.updateMass, T.Attrs]
  | node d a b f p l r ihl ihr =>
    obtain ⟨h1, h2, h3⟩ := ha
    simp only [T.updateMass, h f h1, (ihl h2).1, (ihr h3).1, true_and]
    have e1 := (ihl h2).2
    have e2 := (ihr h3).2
    rw [(ihl h2).1] at e1
    rw [(ihr h3).1] at e2
    split_ifs <;> exact ⟨h1, by assumption, by assumption⟩

theorem updateModel_attrs (m : Nat) (t : T) (ha : t.Attrs (· < m)) : t.updateModel.Attrs (· < m) := by
  induction t with
  | leaf d a b => trivial
  | node d a b f p l r ihl ihr => exact ⟨ha.1, ihl ha.2.1, ihr ha.2.2⟩

theorem score_agree (limit m : Nat) (x y : Row) (h : Agree m x y) (t : T) (ha : t.Attrs (· < m)) :
    t.score limit x = t.score limit y := by
  induction t with
  | leaf d a b => rfl
  | node d a b f p l r ihl ihr =>
    obtain ⟨h1, h2, h3⟩ := ha
    simp only [T.score, h f h1, ihl h2, ihr h3]

/-- C78 (violated): for `n` features (the random draws lie below `n - 1`), two streams and
two rows that agree on all features but the last always get the same answer: the last
feature is ignored. -/
theorem C78_last_feature_ignored_violated (n w maxD limit : Nat) (src : List ((Nat → Nat) × Work))
    (hdraw : ∀ a ∈ src, ∀ i, a.1 i < n - 1) (xs ys : List Row) (hxy : List.Forall₂ (Agree (n - 1)) xs ys)
    (x y : Row) (h : Agree (n - 1) x y) :
    (fit w maxD (buildTrees maxD src) xs).proba w maxD limit x =
      (fit w maxD (buildTrees maxD src) ys).proba w maxD limit y := by
  have gen : ∀ (xs ys : List Row), List.Forall₂ (Agree (n - 1)) xs ys → ∀ s : Forest,
      (∀ t ∈ s.trees, t.Attrs (· < n - 1)) →
      xs.foldl (fitOne w maxD) s = ys.foldl (fitOne w maxD) s ∧
      ∀ t ∈ (xs.foldl (fitOne w maxD) s).trees, t.Attrs (· < n - 1) := by
    intro xs ys hxy
    induction hxy with
    | nil => intro s hs; exact ⟨rfl, hs⟩
    | @cons a b xs ys hab _ ih =>
      intro s hs
      have e1 : s.trees.map (fun t => t.updateMass maxD a (decide (s.seen < w))) =
          s.trees.map fun t => t.updateMass maxD b (decide (s.seen < w)) := by
        apply List.map_congr_left
        intro t ht
        exact (updateMass_agree maxD _ a b hab _ t (hs t ht)).1
      have e : fitOne w maxD s a = fitOne w maxD s b := by
        simp only [fitOne, e1]
      have hA : ∀ t ∈ (fitOne w maxD s a).trees, t.Attrs (· < n - 1) := by
        intro t ht
        simp only [fitOne] at ht
        have base : ∀ t ∈ s.trees.map (fun t => t.updateMass maxD a (decide (s.seen < w))), t.Attrs (· < n - 1) := by
          intro t ht
          obtain ⟨u, hu, rfl⟩ := List.mem_map.mp ht
          exact (updateMass_agree maxD _ a b hab _ u (hs u hu)).2
        split_ifs at ht
        · obtain ⟨u, hu, rfl⟩ := List.mem_map.mp ht
          exact updateModel_attrs _ u (base u hu)
        · exact base t ht
      obtain ⟨i1, i2⟩ := ih (fitOne w maxD s a) hA
      simp only [List.foldl_cons]
      rw [← e]
      exact ⟨i1, i2⟩
  have h0 : ∀ t ∈ buildTrees maxD src, t.Attrs (· < n - 1) := by
    intro t ht
    obtain ⟨a, ha, rfl⟩ := List.mem_map.mp ht
    exact build_attrs _ a.1 (hdraw a ha) _ _ _ _
  obtain ⟨g1, g2⟩ := gen xs ys hxy ⟨0, true, buildTrees maxD src⟩ h0
  simp only [fit]
  rw [← g1]
  simp only [Forest.proba]
  have : ∀ s : Forest, (∀ t ∈ s.trees, t.Attrs (· < n - 1)) →
      s.trees.map (T.votes limit (w * 2 ^ maxD) s.learning x) =
      s.trees.map (T.votes limit (w * 2 ^ maxD) s.learning y) := by
    intro s hs
    apply List.map_congr_left
    intro t ht
    simp only [T.votes, score_agree limit _ x y h t (hs t ht)]
  rw [this _ g2]

/-- C78 (what holds): every other feature does matter for some draws: a row that differs
only in feature `f` is scored differently. -/
theorem C78_other_features_count_partial (n f : Nat) (hf : f < n - 1) :
    ∃ (src : List ((Nat → Nat) × Work)) (xs : List Row) (x y : Row), (∀ a ∈ src, ∀ i, a.1 i < n - 1) ∧
      (∀ g, g ≠ f → x g = y g) ∧
      (fit 3 2 (buildTrees 2 src) xs).proba 3 2 0 x ≠ (fit 3 2 (buildTrees 2 src) xs).proba 3 2 0 y := by
  refine ⟨[(fun _ => f, ⟨fun _ => 0, fun _ => 1⟩)], List.replicate 9 fun _ => 0, fun _ => 0,
    fun g => if g = f then 1 else 0, ?_, ?_, ?_⟩
  · intro a ha i
    rw [List.mem_singleton] at ha
    subst ha; exact hf
  · intro g hg; simp [hg]
  · obtain ⟨h1, h2⟩ := buildTrees_ok 2 (by omega) [(fun _ => f, (⟨fun _ => 0, fun _ => 1⟩ : Work))]
    obtain ⟨_, hl, h3⟩ := fit_spec 3 2 (by omega) _ h1 h2 (List.replicate 9 fun _ => 0)
    simp only [Forest.proba, h3, hl]
    simp [buildTrees, build, T.fill, refRows, latRows, T.votes, T.score, meanVotes, l1]
    norm_num

end Verif.Anomaly
