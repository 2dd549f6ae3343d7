import Verif.Common
import Mathlib.Algebra.Order.Field.Basic
import Mathlib.Algebra.Order.BigOperators.Group.List
import Mathlib.Data.List.Dedup
import Mathlib.Data.List.Sort
import Mathlib.Tactic.Ring
import Mathlib.Tactic.Linarith
import Mathlib.Tactic.FieldSimp

/-!
# Robust soft learning vector quantization (C219-C223)

prototype/robust_soft_learning_vector_quantization.py, over any ordered field, with the exponential and the
square root as parameters. Distances are compared by their squares. Rows are taken to have the
number of features of the prototypes; numbers that are not finite are out of the model, and so are numpy arrays
given as `classes`.
-/

namespace Verif.Prototype

variable {F : Type} [Field F] [LinearOrder F] [IsStrictOrderedRing F]

/-- A prototype (`w_[j]`) and its class (`c_w_[j]`). -/
abbrev Proto (F : Type) := List F × Int

/-- Parameters; `initial` are the initial prototypes, `shared` says that they were given as a float array, which
`check_array` does not copy (line 257), so that `w_` is a view of it. -/
structure Cfg (F : Type) where
  sigma : F
  ppc : Nat
  adadelta : Bool
  gamma : F
  eps : F
  exp : F → F
  root : F → F
  initial : Option (List (Proto F))
  shared : Bool

/-- The constructor's arguments that are checked, as given; lines 97-129: the learning rate is computed first. -/
def construct (sigma ppc gamma : F) (knownOptimizer : Bool) : Except PyErr F :=
  if sigma = 0 then .error .zeroDivision
  else if sigma ≤ 0 then .error .valueError
  else if ppc ≤ 0 then .error .valueError
  else if gamma ≥ 1 ∨ gamma < 0 then .error .valueError
  else if knownOptimizer = false then .error .valueError
  else .ok (1 / sigma)

/-- `classes_`, `protos_initialized`, `w_` with `c_w_`, the squared means of gradient and step of prototype and
feature, `initial_fit`, and the caller's array of initial prototypes. -/
structure S (F : Type) where
  classes : List Int
  ready : List Bool
  ps : List (Proto F)
  mom : Nat → Nat → F × F
  fresh : Bool
  given : List (Proto F)

/-- After the constructor. -/
def blank (cfg : Cfg F) : S F := ⟨[], [], [], fun _ _ => (0, 0), true, cfg.initial.getD []⟩

/-- The squared distance. -/
def sq (x w : List F) : F := ((List.zipWith (· - ·) x w).map fun d => d * d).sum

/-- `_costf`, lines 369-372. -/
def cost (cfg : Cfg F) (x w : List F) : F := -(sq x w) / (2 * cfg.sigma)

/-- `np.amax`. -/
def amax : List F → F
  | [] => 0
  | a :: l => l.foldl max a

/-- `_p`, lines 374-386: all prototypes, or those of class `y`; `w` is the prototype asked for. -/
def prob (cfg : Cfg F) (ps : List (Proto F)) (w x : List F) (y : Option Int) : F :=
  let fs := (ps.filter fun q => match y with
    | none => true
    | some y => q.2 == y).map fun q => cost cfg x q.1
  cfg.exp (cost cfg x w - amax fs) / (fs.map fun f => cfg.exp (f - amax fs)).sum

/-- The factor of `d` in lines 137-143 and 150-153. -/
def coef (cfg : Cfg F) (ps : List (Proto F)) (q : Proto F) (x : List F) (y : Int) : F :=
  if q.2 = y then prob cfg ps q.1 x (some y) - prob cfg ps q.1 x none
  else -(prob cfg ps q.1 x none)

/-- One coordinate of `_update_prototype_adadelta`, lines 155-172: the squared means and the step, from the
gradient. -/
def ada (cfg : Cfg F) (m : F × F) (g : F) : (F × F) × F :=
  let g2 := cfg.gamma * m.1 + (1 - cfg.gamma) * g * g
  let step := cfg.root ((m.2 + cfg.eps) / (g2 + cfg.eps)) * g
  ((g2, cfg.gamma * m.2 + (1 - cfg.gamma) * step * step), step)

/-- `_update_prototype`, lines 131-172. -/
def update (cfg : Cfg F) (s : S F) (j : Nat) (x : List F) (y : Int) : S F :=
  match s.ps[j]? with
  | none => s
  | some q =>
    let c := coef cfg s.ps q x y
    if cfg.adadelta then
      { s with
        ps := s.ps.set j (q.1.mapIdx fun f w => w + (ada cfg (s.mom j f) (c * (x.getD f 0 - w))).2, q.2)
        mom := fun i f => if i = j then (ada cfg (s.mom j f) (c * (x.getD f 0 - q.1.getD f 0))).1 else s.mom i f }
    else
      { s with ps := s.ps.set j (q.1.mapIdx fun f w => w + 1 / cfg.sigma * c * (x.getD f 0 - w), q.2) }

/-- Lines 329-331 and 337-339; no best one yet is the distance `inf`. -/
def closer (b : Option (Nat × F)) (j : Nat) (d : F) : Option (Nat × F) :=
  match b with
  | none => some (j, d)
  | some b => if d < b.2 then some (j, d) else some b

/-- Lines 319-339: the nearest prototype of class `y`, and of another one. -/
def scan (x : List F) (y : Int) : Nat → List (Proto F) → Option (Nat × F) × Option (Nat × F) → Option (Nat × F) × Option (Nat × F)
  | _, [], b => b
  | j, q :: l, b =>
    scan x y (j + 1) l (if q.2 = y then (closer b.1 j (sq x q.1), b.2) else (b.1, closer b.2 j (sq x q.1)))

/-- Lines 317-347. Without a prototype of the class the index would be unbound, or that of a row before. -/
def trainRow (cfg : Cfg F) (s : S F) (x : List F) (y : Int) : Except PyErr (S F) :=
  match scan x y 0 s.ps (none, none) with
  | (_, none) => .ok s
  | (none, some _) => .error .nameError
  | (some c, some i) => if i.2 < c.2 then .ok (update cfg (update cfg s c.1 x y) i.1 x y) else .ok s

/-- `_optimize`, lines 310-347. -/
def optimize (cfg : Cfg F) (s : S F) : List (List F × Int) → Except PyErr (S F)
  | [] => .ok s
  | r :: rows => match trainRow cfg s r.1 r.2 with
    | .error e => .error e
    | .ok s => optimize cfg s rows

/-- `unique_labels`. -/
def unique (ys : List Int) : List Int := ys.dedup.insertionSort (· ≤ ·)

/-- `np.mean(train_set[train_lab == c, :], 0)`. -/
def classMean (nf : Nat) (rows : List (List F × Int)) (c : Int) : List F :=
  let xs := (rows.filter fun r => r.2 == c).map Prod.fst
  (List.range nf).map fun f => (xs.map fun x => x.getD f 0).sum / (xs.length : F)

/-- A call of `partial_fit`: the batch, `classes`, what is in the memory `np.empty` returns, and the random numbers
in [0, 1) for class, prototype and feature. -/
structure Call (F : Type) where
  rows : List (List F × Int)
  classes : List Int
  memory : Nat → Proto F
  noise : Nat → Nat → Nat → F

/-- The rows of `w_` of one class: lines 239-245. -/
def seedProto (cfg : Cfg F) (a : Call F) (nf : Nat) (idx r : Nat) (c : Int) : Proto F :=
  let m := classMean nf a.rows c
  (if cfg.ppc = 1 then m else m.mapIdx fun f v => v + (a.noise idx r f * 2 - 1), c)

/-- Lines 231-255 for class number `idx`. -/
def initClass (cfg : Cfg F) (a : Call F) (nf : Nat) (s : S F) (idx : Nat) : S F :=
  match s.classes[idx]? with
  | none => s
  | some c =>
    if s.ready.getD idx false = false ∧ c ∈ a.rows.map Prod.snd then
      { s with
        ps := (List.range cfg.ppc).foldl (fun ps r => ps.set (idx * cfg.ppc + r) (seedProto cfg a nf idx r c)) s.ps
        ready := s.ready.set idx true }
    else s

/-- Lines 179-192. -/
def setClasses (a : Call F) (s : S F) : Except PyErr (S F) :=
  if s.fresh then
    let cs := if a.classes = [] then unique (a.rows.map Prod.snd) else a.classes
    if (List.range cs.length).all fun i => cs.contains (i : Int) then
      .ok { s with classes := cs, ready := List.replicate cs.length false }
    else .error .valueError
  else .ok s

/-- Lines 224-275. -/
def setPrototypes (cfg : Cfg F) (a : Call F) (nf : Nat) (s : S F) : Except PyErr (S F) :=
  match cfg.initial with
  | none =>
    let s := if s.fresh then { s with ps := (List.range (s.classes.length * cfg.ppc)).map a.memory } else s
    .ok { (List.range s.classes.length).foldl (initClass cfg a nf) s with fresh := false }
  | some _ =>
    if s.given.length ≠ s.classes.length * cfg.ppc ∨ (s.given.any fun q => q.1.length != nf) then .error .valueError
    else if (s.given.all fun q => s.classes.contains q.2) && (s.classes.all fun c => (s.given.map Prod.snd).contains c) then
      .ok { s with ps := s.given, fresh := false }
    else .error .valueError

/-- `partial_fit`, lines 279-308 with 174-277. With a shared array the training writes to it. -/
def partialFit (cfg : Cfg F) (s : S F) (a : Call F) : Except PyErr (S F) :=
  if ¬ s.fresh ∧ ¬ (∀ y ∈ a.rows.map Prod.snd, y ∈ s.classes) then .error .valueError
  else
    match a.rows with
    | [] => .error .valueError
    | r :: _ => do
      let s ← setClasses a s
      let s ← setPrototypes cfg a r.1.length s
      let s ← optimize cfg s a.rows
      .ok (if cfg.shared ∧ cfg.initial.isSome then { s with given := s.ps } else s)

/-- Several calls. -/
def fits (cfg : Cfg F) (s : S F) : List (Call F) → Except PyErr (S F)
  | [] => .ok s
  | a :: l => match partialFit cfg s a with
    | .error e => .error e
    | .ok s => fits cfg s l

/-- The rest of `np.argmax`: the best value so far, its index, and the next index. -/
def argmaxFrom (b : F) (bi i : Nat) : List F → Nat
  | [] => bi
  | v :: l => if b < v then argmaxFrom v i (i + 1) l else argmaxFrom b bi (i + 1) l

/-- `np.argmax`. -/
def argmax : List F → Nat
  | [] => 0
  | a :: l => argmaxFrom a 0 1 l

/-- `predict` of one row, lines 365-367; without prototypes `w_` does not exist. -/
def predict (cfg : Cfg F) (s : S F) (x : List F) : Except PyErr Int :=
  match s.ps[argmax (s.ps.map fun q => cost cfg x q.1)]? with
  | none => .error .attributeError
  | some q => .ok q.2

/-! ### Specification -/

/-- Number `j` is the first of the prototypes nearest to `x` among those with property `P`. -/
def Nearest (ps : List (Proto F)) (x : List F) (P : Int → Prop) (j : Nat) (q : Proto F) : Prop :=
  ps[j]? = some q ∧ P q.2 ∧ ∀ (i : Nat) (r : Proto F), ps[i]? = some r → P r.2 → sq x q.1 ≤ sq x r.1 ∧ (i < j → sq x q.1 < sq x r.1)

/-- From `w` in the direction `k` times that of `x`, coordinate by coordinate (`k = 1`: towards `x`, `k = -1`: away). -/
def Moves (k : F) (x w w' : List F) : Prop :=
  w'.length = w.length ∧ ∀ f < w.length, ∃ t, 0 ≤ t ∧ w'.getD f 0 = w.getD f 0 + k * t * (x.getD f 0 - w.getD f 0)

/-- The same with one factor, at most `b`, for all coordinates. -/
def MovesBy (k b : F) (x w w' : List F) : Prop :=
  ∃ t, 0 ≤ t ∧ t ≤ b ∧ w'.length = w.length ∧ ∀ f < w.length, w'.getD f 0 = w.getD f 0 + k * t * (x.getD f 0 - w.getD f 0)

/-- What the theorems need of the exponential and the root. -/
structure Fine (cfg : Cfg F) : Prop where
  sigma : 0 < cfg.sigma
  pos : ∀ a, 0 < cfg.exp a
  add : ∀ a b, cfg.exp (a + b) = cfg.exp a * cfg.exp b
  root : ∀ a, 0 ≤ cfg.root a

/-! ### Prediction -/

theorem argmaxFrom_spec (l pre : List F) (b : F) (bi : Nat) (h1 : pre[bi]? = some b) (h2 : ∀ (i : Nat) (w : F), pre[i]? = some w → w ≤ b ∧ (i < bi → w < b)) :
    ∃ v, (pre ++ l)[argmaxFrom b bi pre.length l]? = some v ∧
      ∀ (i : Nat) (w : F), (pre ++ l)[i]? = some w → w ≤ v ∧ (i < argmaxFrom b bi pre.length l → w < v) := by
  induction l generalizing pre b bi with
  | nil => exact ⟨b, by simpa [argmaxFrom] using h1, by simpa [argmaxFrom] using h2⟩
  | cons v l ih =>
    have hbi : bi < pre.length := by
      by_contra hc
      rw [List.getElem?_eq_none (by omega)] at h1
      cases h1
    have happ : pre ++ v :: l = (pre ++ [v]) ++ l := by simp
    rw [argmaxFrom, happ]
    have hlen : pre.length + 1 = (pre ++ [v]).length := by simp
    have hcase : ∀ (i : Nat) (w : F), (pre ++ [v])[i]? = some w → (pre[i]? = some w ∧ i < pre.length) ∨ (i = pre.length ∧ w = v) := by
      intro i w hw
      rcases Nat.lt_trichotomy i pre.length with h | h | h
      · rw [List.getElem?_append_left h] at hw; exact .inl ⟨hw, h⟩
      · subst h; simp at hw; exact .inr ⟨rfl, hw.symm⟩
      · rw [List.getElem?_eq_none (by simp; omega)] at hw; cases hw
    by_cases hlt : b < v
    · rw [if_pos hlt, hlen]
      refine ih (pre ++ [v]) v pre.length (by simp) ?_
      intro i w hw
      rcases hcase i w hw with ⟨h, h'⟩ | ⟨h, h'⟩
      · have := lt_of_le_of_lt (h2 i w h).1 hlt
        exact ⟨this.le, fun _ => this⟩
      · subst h h'; exact ⟨le_refl _, fun hc => absurd hc (lt_irrefl _)⟩
    · rw [if_neg hlt, hlen]
      refine ih (pre ++ [v]) b bi (by rw [List.getElem?_append_left hbi]; exact h1) ?_
      intro i w hw
      rcases hcase i w hw with ⟨h, h'⟩ | ⟨h, h'⟩
      · exact h2 i w h
      · subst h'; exact ⟨not_lt.1 hlt, fun hc => by omega⟩

theorem argmax_spec (l : List F) (h : l ≠ []) :
    ∃ v, l[argmax l]? = some v ∧ ∀ (i : Nat) (w : F), l[i]? = some w → w ≤ v ∧ (i < argmax l → w < v) := by
  cases l with
  | nil => exact absurd rfl h
  | cons a l =>
    exact argmaxFrom_spec l [a] a 0 rfl (by
      intro i w hw
      cases i with
      | zero => simp at hw; subst hw; exact ⟨le_refl _, fun hc => absurd hc (lt_irrefl _)⟩
      | succ i => simp at hw)

theorem cost_lt (cfg : Cfg F) (hs : 0 < cfg.sigma) (x a b : List F) : cost cfg x a < cost cfg x b ↔ sq x b < sq x a := by
  unfold cost
  rw [div_lt_div_iff_of_pos_right (by linarith), neg_lt_neg_iff]

theorem cost_le (cfg : Cfg F) (hs : 0 < cfg.sigma) (x a b : List F) : cost cfg x a ≤ cost cfg x b ↔ sq x b ≤ sq x a := by
  rw [← not_lt, ← not_lt, cost_lt cfg hs]

/-- **C219**: the answer is the class of the prototype nearest to the row, the first of them if there are several. -/
theorem C219_nearest (cfg : Cfg F) (hs : 0 < cfg.sigma) (s : S F) (hne : s.ps ≠ []) (x : List F) :
    ∃ j q, Nearest s.ps x (fun _ => True) j q ∧ predict cfg s x = .ok q.2 := by
  obtain ⟨v, h1, h2⟩ := argmax_spec (s.ps.map fun q => cost cfg x q.1) (by simpa using hne)
  rw [List.getElem?_map] at h1
  cases hq : s.ps[argmax (s.ps.map fun q => cost cfg x q.1)]? with
  | none => rw [hq] at h1; simp at h1
  | some q =>
    rw [hq] at h1
    simp only [Option.map_some, Option.some.injEq] at h1
    refine ⟨_, q, ⟨hq, trivial, fun i r hr _ => ?_⟩, by rw [predict, hq]⟩
    have := h2 i (cost cfg x r.1) (by rw [List.getElem?_map, hr]; rfl)
    rw [← h1, cost_le cfg hs] at this
    exact ⟨this.1, fun hi => (cost_lt cfg hs x _ _).1 (this.2 hi)⟩

/-! ### Learning from one row -/

/-- The best so far among the first `n`. -/
def BestOf (ps : List (Proto F)) (x : List F) (P : Int → Prop) (b : Option (Nat × F)) : Prop :=
  match b with
  | none => ∀ (i : Nat) (r : Proto F), ps[i]? = some r → ¬ P r.2
  | some (j, d) => ∃ q, Nearest ps x P j q ∧ d = sq x q.1

theorem best_snoc_other (ps : List (Proto F)) (x : List F) (P : Int → Prop) (b : Option (Nat × F)) (q : Proto F) (h : BestOf ps x P b) (hq : ¬ P q.2) :
    BestOf (ps ++ [q]) x P b := by
  have hcase : ∀ (i : Nat) (r : Proto F), (ps ++ [q])[i]? = some r → P r.2 → ps[i]? = some r := by
    intro i r hr hp
    rcases Nat.lt_trichotomy i ps.length with h | h | h
    · rwa [List.getElem?_append_left h] at hr
    · subst h; simp at hr; subst hr; exact absurd hp hq
    · rw [List.getElem?_eq_none (by simp; omega)] at hr; cases hr
  cases b with
  | none => exact fun i r hr hp => h i r (hcase i r hr hp) hp
  | some b =>
    obtain ⟨j, d⟩ := b
    obtain ⟨q0, ⟨h1, h2, h3⟩, h4⟩ := h
    refine ⟨q0, ⟨?_, h2, fun i r hr hp => h3 i r (hcase i r hr hp) hp⟩, h4⟩
    rw [List.getElem?_append_left (List.getElem?_eq_some_iff.1 h1).1]
    exact h1

theorem best_snoc (ps : List (Proto F)) (x : List F) (P : Int → Prop) (b : Option (Nat × F)) (q : Proto F) (h : BestOf ps x P b) (hq : P q.2) :
    BestOf (ps ++ [q]) x P (closer b ps.length (sq x q.1)) := by
  have hcase : ∀ (i : Nat) (r : Proto F), (ps ++ [q])[i]? = some r → (ps[i]? = some r ∧ i < ps.length) ∨ (i = ps.length ∧ r = q) := by
    intro i r hr
    rcases Nat.lt_trichotomy i ps.length with h | h | h
    · rw [List.getElem?_append_left h] at hr; exact .inl ⟨hr, h⟩
    · subst h; simp at hr; exact .inr ⟨rfl, hr.symm⟩
    · rw [List.getElem?_eq_none (by simp; omega)] at hr; cases hr
  have hlast : (ps ++ [q])[ps.length]? = some q := by simp
  cases b with
  | none =>
    refine ⟨q, ⟨hlast, hq, fun i r hr hp => ?_⟩, rfl⟩
    rcases hcase i r hr with ⟨h', _⟩ | ⟨h', h''⟩
    · exact absurd hp (h i r h')
    · subst h' h''; exact ⟨le_refl _, fun hc => absurd hc (lt_irrefl _)⟩
  | some b =>
    obtain ⟨j, d⟩ := b
    obtain ⟨q0, ⟨h1, h2, h3⟩, h4⟩ := h
    simp only [closer]
    by_cases hlt : sq x q.1 < d
    · rw [if_pos hlt]
      refine ⟨q, ⟨hlast, hq, fun i r hr hp => ?_⟩, rfl⟩
      rcases hcase i r hr with ⟨h', _⟩ | ⟨h', h''⟩
      · have := lt_of_lt_of_le hlt (h4 ▸ (h3 i r h' hp).1)
        exact ⟨this.le, fun _ => this⟩
      · subst h' h''; exact ⟨le_refl _, fun hc => absurd hc (lt_irrefl _)⟩
    · rw [if_neg hlt]
      have hj := (List.getElem?_eq_some_iff.1 h1).1
      refine ⟨q0, ⟨by rw [List.getElem?_append_left hj]; exact h1, h2, fun i r hr hp => ?_⟩, h4⟩
      rcases hcase i r hr with ⟨h', _⟩ | ⟨h', h''⟩
      · exact h3 i r h' hp
      · subst h''
        exact ⟨h4 ▸ not_lt.1 hlt, fun hc => by omega⟩

theorem scan_spec (x : List F) (y : Int) (l pre : List (Proto F)) (b : Option (Nat × F) × Option (Nat × F))
    (h1 : BestOf pre x (· = y) b.1) (h2 : BestOf pre x (· ≠ y) b.2) :
    BestOf (pre ++ l) x (· = y) (scan x y pre.length l b).1 ∧ BestOf (pre ++ l) x (· ≠ y) (scan x y pre.length l b).2 := by
  induction l generalizing pre b with
  | nil => simpa [scan] using ⟨h1, h2⟩
  | cons q l ih =>
    have happ : pre ++ q :: l = (pre ++ [q]) ++ l := by simp
    have hlen : pre.length + 1 = (pre ++ [q]).length := by simp
    rw [scan, happ, hlen]
    by_cases hq : q.2 = y
    · rw [if_pos hq]
      exact ih _ _ (best_snoc pre x _ b.1 q h1 hq) (best_snoc_other pre x _ b.2 q h2 (by simpa using hq))
    · rw [if_neg hq]
      exact ih _ _ (best_snoc_other pre x _ b.1 q h1 hq) (best_snoc pre x _ b.2 q h2 hq)

/-! #### The probabilities -/

theorem fold_max_ge (l : List F) (a : F) : a ≤ l.foldl max a ∧ ∀ b ∈ l, b ≤ l.foldl max a := by
  induction l generalizing a with
  | nil => simp
  | cons c l ih =>
    rw [List.foldl_cons]
    obtain ⟨h1, h2⟩ := ih (max a c)
    refine ⟨le_trans (le_max_left _ _) h1, fun b hb => ?_⟩
    rcases List.mem_cons.1 hb with rfl | hb
    · exact le_trans (le_max_right _ _) h1
    · exact h2 b hb

theorem sum_pos_of (l : List F) (hne : l ≠ []) (h : ∀ a ∈ l, 0 < a) : 0 < l.sum := List.sum_pos l h hne

/-- The shift by the largest exponent does not matter. -/
theorem prob_eq (cfg : Cfg F) (hf : Fine cfg) (ps : List (Proto F)) (w x : List F) (y : Option Int) :
    prob cfg ps w x y = cfg.exp (cost cfg x w) /
      ((ps.filter fun q => match y with
        | none => true
        | some y => q.2 == y).map fun q => cfg.exp (cost cfg x q.1)).sum := by
  unfold prob
  simp only []
  generalize (ps.filter fun q => match y with
    | none => true
    | some y => q.2 == y) = l
  generalize amax (l.map fun q => cost cfg x q.1) = m
  have hm := hf.pos (-m)
  have h1 : ∀ a, cfg.exp (a - m) = cfg.exp (-m) * cfg.exp a := by
    intro a
    rw [← hf.add]
    congr 1
    ring
  have h2 : ((l.map fun q => cost cfg x q.1).map fun f => cfg.exp (f - m)).sum = cfg.exp (-m) * (l.map fun q => cfg.exp (cost cfg x q.1)).sum := by
    rw [List.map_map]
    induction l with
    | nil => simp
    | cons a l ih =>
      simp only [List.map_cons, List.sum_cons, Function.comp_apply] at ih ⊢
      rw [ih, h1]
      ring
  rw [h2, h1, mul_div_mul_left _ _ (ne_of_gt hm)]

theorem sum_filter_le (ps : List (Proto F)) (g : Proto F → F) (hg : ∀ q, 0 < g q) (P : Proto F → Bool) :
    ((ps.filter P).map g).sum ≤ (ps.map g).sum := by
  induction ps with
  | nil => simp
  | cons q ps ih =>
    rw [List.filter_cons]
    split
    · simpa using ih
    · simp only [List.map_cons, List.sum_cons]
      have := hg q
      linarith

theorem mem_le_sum (l : List (Proto F)) (g : Proto F → F) (hg : ∀ q, 0 < g q) (q : Proto F) (h : q ∈ l) : g q ≤ (l.map g).sum := by
  induction l with
  | nil => simp at h
  | cons a l ih =>
    have hnn : 0 ≤ (l.map g).sum := List.sum_nonneg (by
      intro b hb
      obtain ⟨c, _, rfl⟩ := List.mem_map.1 hb
      exact (hg c).le)
    simp only [List.map_cons, List.sum_cons]
    rcases List.mem_cons.1 h with rfl | h
    · linarith
    · have := ih h
      have := hg a
      linarith

/-- The factor is between 0 and 1 for a prototype of the class, between -1 and 0 for another. -/
theorem coef_sign (cfg : Cfg F) (hf : Fine cfg) (ps : List (Proto F)) (q : Proto F) (hq : q ∈ ps) (x : List F) (y : Int) :
    (q.2 = y → 0 ≤ coef cfg ps q x y ∧ coef cfg ps q x y ≤ 1) ∧ (q.2 ≠ y → -1 ≤ coef cfg ps q x y ∧ coef cfg ps q x y ≤ 0) := by
  have hg : ∀ r : Proto F, 0 < cfg.exp (cost cfg x r.1) := fun r => hf.pos _
  have e0 := hf.pos (cost cfg x q.1)
  -- all prototypes
  have hall : prob cfg ps q.1 x none = cfg.exp (cost cfg x q.1) / (ps.map fun r => cfg.exp (cost cfg x r.1)).sum := by
    rw [prob_eq cfg hf]; simp
  have hle := mem_le_sum ps _ hg q hq
  have hpos := lt_of_lt_of_le (hg q) hle
  have h0 : 0 ≤ prob cfg ps q.1 x none := by rw [hall]; exact div_nonneg e0.le hpos.le
  have h1 : prob cfg ps q.1 x none ≤ 1 := by rw [hall, div_le_one hpos]; exact hle
  constructor
  · intro hy
    rw [coef, if_pos hy]
    have hsome : prob cfg ps q.1 x (some y) = cfg.exp (cost cfg x q.1) / ((ps.filter fun r => r.2 == y).map fun r => cfg.exp (cost cfg x r.1)).sum := by
      rw [prob_eq cfg hf]
    have hle' := mem_le_sum (ps.filter fun r => r.2 == y) _ hg q (List.mem_filter.2 ⟨hq, by simpa using hy⟩)
    have hpos' := lt_of_lt_of_le (hg q) hle'
    have hss := sum_filter_le ps _ hg fun r => r.2 == y
    have h3 : prob cfg ps q.1 x none ≤ prob cfg ps q.1 x (some y) := by
      rw [hall, hsome]
      exact div_le_div_of_nonneg_left e0.le hpos' hss
    have h4 : prob cfg ps q.1 x (some y) ≤ 1 := by rw [hsome, div_le_one hpos']; exact hle'
    constructor <;> linarith
  · intro hy
    rw [coef, if_neg hy]
    constructor <;> linarith

/-! #### The update -/

theorem getD_mapIdx (l : List F) (g : Nat → F → F) (f : Nat) (hf : f < l.length) : (l.mapIdx g).getD f 0 = g f (l.getD f 0) := by
  simp [List.getD_eq_getElem?_getD, List.getElem?_mapIdx, List.getElem?_eq_getElem hf]

/-- What one update does. -/
theorem update_spec (cfg : Cfg F) (hf : Fine cfg) (s : S F) (j : Nat) (q : Proto F) (hq : s.ps[j]? = some q) (x : List F) (y : Int) :
    ∃ w', (update cfg s j x y).ps = s.ps.set j (w', q.2) ∧
      Moves (if q.2 = y then 1 else -1) x q.1 w' ∧
      (cfg.adadelta = false → MovesBy (if q.2 = y then 1 else -1) (1 / cfg.sigma) x q.1 w') ∧
      (update cfg s j x y).classes = s.classes ∧ (update cfg s j x y).ready = s.ready ∧ (update cfg s j x y).fresh = s.fresh ∧
      (update cfg s j x y).given = s.given := by
  have hmem : q ∈ s.ps := List.mem_of_getElem? hq
  obtain ⟨c1, c2⟩ := coef_sign cfg hf s.ps q hmem x y
  have hlr : 0 < 1 / cfg.sigma := one_div_pos.2 hf.sigma
  -- the factor without its sign
  obtain ⟨t, ht0, ht1, htc⟩ : ∃ t, 0 ≤ t ∧ t ≤ 1 ∧ coef cfg s.ps q x y = (if q.2 = y then 1 else -1) * t := by
    by_cases hy : q.2 = y
    · exact ⟨_, (c1 hy).1, (c1 hy).2, by rw [if_pos hy, one_mul]⟩
    · exact ⟨-coef cfg s.ps q x y, by have := (c2 hy).2; linarith, by have := (c2 hy).1; linarith, by rw [if_neg hy]; ring⟩
  by_cases ha : cfg.adadelta = true
  · refine ⟨q.1.mapIdx fun f w => w + (ada cfg (s.mom j f) (coef cfg s.ps q x y * (x.getD f 0 - w))).2, ?_, ?_, ?_, ?_⟩
    · simp only [update, hq, ha, if_true]
    · refine ⟨by simp, fun f hlt => ?_⟩
      rw [getD_mapIdx _ _ _ hlt]
      simp only [ada]
      refine ⟨cfg.root ((((s.mom j f).2 + cfg.eps)) / (cfg.gamma * (s.mom j f).1 + (1 - cfg.gamma) *
        (coef cfg s.ps q x y * (x.getD f 0 - q.1.getD f 0)) * (coef cfg s.ps q x y * (x.getD f 0 - q.1.getD f 0)) + cfg.eps)) * t,
        mul_nonneg (hf.root _) ht0, ?_⟩
      rw [htc]
      ring
    · intro hc; rw [ha] at hc; cases hc
    · simp only [update, hq, ha, if_true, and_self]
  · have ha' : cfg.adadelta = false := by simpa using ha
    have hby : MovesBy (if q.2 = y then 1 else -1) (1 / cfg.sigma) x q.1
        (q.1.mapIdx fun f w => w + 1 / cfg.sigma * coef cfg s.ps q x y * (x.getD f 0 - w)) := by
      refine ⟨1 / cfg.sigma * t, mul_nonneg hlr.le ht0, ?_, by simp, fun f hlt => ?_⟩
      · calc 1 / cfg.sigma * t ≤ 1 / cfg.sigma * 1 := mul_le_mul_of_nonneg_left ht1 hlr.le
          _ = 1 / cfg.sigma := mul_one _
      · rw [getD_mapIdx _ _ _ hlt, htc]
        ring
    refine ⟨_, ?_, ?_, fun _ => hby, ?_⟩
    · simp only [update, hq, ha', Bool.false_eq_true, if_false]
    · obtain ⟨t', g1, g2, g3, g4⟩ := hby
      exact ⟨g3, fun f hlt => ⟨t', g1, g4 f hlt⟩⟩
    · simp only [update, hq, ha', Bool.false_eq_true, if_false, and_self]

/-- **C220**: learning from one row of class `y`. If the nearest prototype is one of class `y` nothing is changed. -/
theorem C220_right (cfg : Cfg F) (s : S F) (x : List F) (y : Int) (j : Nat) (q : Proto F) (hq : Nearest s.ps x (fun _ => True) j q)
    (hy : q.2 = y) : trainRow cfg s x y = .ok s := by
  obtain ⟨h1, h2⟩ := scan_spec x y s.ps [] (none, none) (by simp [BestOf]) (by simp [BestOf])
  simp only [List.nil_append, List.length_nil] at h1 h2
  rw [trainRow]
  rcases hs : scan x y 0 s.ps (none, none) with ⟨_ | ⟨jc, dc⟩, _ | ⟨ji, di⟩⟩
  · rfl
  · rw [hs] at h1
    exact absurd hy (h1 j q hq.1)
  · rfl
  · rw [hs] at h1 h2
    obtain ⟨qc, c1, rfl⟩ := h1
    obtain ⟨qi, c2, rfl⟩ := h2
    simp only []
    rw [if_neg]
    have a := (c1.2.2 j q hq.1 hy).1
    have b := (hq.2.2 ji qi c2.1 trivial).1
    exact not_lt.2 (le_trans a b)

/-- Nearest of another class, and closer: both are updated, the one of the class first. -/
theorem trainRow_wrong (cfg : Cfg F) (s : S F) (x : List F) (y : Int) (jc ji : Nat) (qc qi : Proto F)
    (hc : Nearest s.ps x (· = y) jc qc) (hi : Nearest s.ps x (· ≠ y) ji qi) (hlt : sq x qi.1 < sq x qc.1) :
    trainRow cfg s x y = .ok (update cfg (update cfg s jc x y) ji x y) := by
  obtain ⟨h1, h2⟩ := scan_spec x y s.ps [] (none, none) (by simp [BestOf]) (by simp [BestOf])
  simp only [List.nil_append, List.length_nil] at h1 h2
  have uniq : ∀ (P : Int → Prop) (j j' : Nat) (q q' : Proto F), Nearest s.ps x P j q → Nearest s.ps x P j' q' → j = j' := by
    intro P j j' q q' a b
    rcases Nat.lt_trichotomy j j' with h | h | h
    · have g1 := (b.2.2 j q a.1 a.2.1).2 h
      have g2 := (a.2.2 j' q' b.1 b.2.1).1
      exact absurd g1 (not_lt.2 g2)
    · exact h
    · have g1 := (a.2.2 j' q' b.1 b.2.1).2 h
      have g2 := (b.2.2 j q a.1 a.2.1).1
      exact absurd g1 (not_lt.2 g2)
  rw [trainRow]
  rcases hs : scan x y 0 s.ps (none, none) with ⟨_ | ⟨jc', dc⟩, _ | ⟨ji', di⟩⟩
  · rw [hs] at h1; exact absurd hc.2.1 (h1 jc qc hc.1)
  · rw [hs] at h1; exact absurd hc.2.1 (h1 jc qc hc.1)
  · rw [hs] at h2; exact absurd hi.2.1 (h2 ji qi hi.1)
  · rw [hs] at h1 h2
    obtain ⟨qc', c1, rfl⟩ := h1
    obtain ⟨qi', c2, rfl⟩ := h2
    have e1 := uniq _ _ _ _ _ c1 hc
    have e2 := uniq _ _ _ _ _ c2 hi
    subst e1 e2
    have e3 : qc' = qc := by have := c1.1; rw [hc.1] at this; exact (Option.some.inj this).symm
    have e4 : qi' = qi := by have := c2.1; rw [hi.1] at this; exact (Option.some.inj this).symm
    subst e3 e4
    simp only []
    rw [if_pos hlt]

/-- **C220**: otherwise the nearest prototype of class `y` moves towards the row, the nearest of another class moves away
from it, each coordinate in proportion to its distance (with vanilla gradient descent all with the same factor, at most
`1 / sigma`), and nothing else changes. -/
theorem C220_wrong (cfg : Cfg F) (hf : Fine cfg) (s : S F) (x : List F) (y : Int) (jc ji : Nat) (qc qi : Proto F)
    (hc : Nearest s.ps x (· = y) jc qc) (hi : Nearest s.ps x (· ≠ y) ji qi) (hlt : sq x qi.1 < sq x qc.1) :
    ∃ s' wc wi, trainRow cfg s x y = .ok s' ∧ s'.ps = (s.ps.set jc (wc, y)).set ji (wi, qi.2) ∧
      Moves 1 x qc.1 wc ∧ Moves (-1) x qi.1 wi ∧
      (cfg.adadelta = false → MovesBy 1 (1 / cfg.sigma) x qc.1 wc ∧ MovesBy (-1) (1 / cfg.sigma) x qi.1 wi) ∧
      s'.classes = s.classes ∧ s'.ready = s.ready ∧ s'.fresh = s.fresh ∧ s'.given = s.given := by
  rw [trainRow_wrong cfg s x y jc ji qc qi hc hi hlt]
  obtain ⟨wc, u1, u2, u3, u4, u5, u6, u7⟩ := update_spec cfg hf s jc qc hc.1 x y
  have hne : jc ≠ ji := by
    rintro rfl
    have := hc.1
    rw [hi.1] at this
    cases this
    exact hi.2.1 hc.2.1
  have hget : (update cfg s jc x y).ps[ji]? = some qi := by
    rw [u1, List.getElem?_set_ne hne]
    exact hi.1
  obtain ⟨wi, v1, v2, v3, v4, v5, v6, v7⟩ := update_spec cfg hf (update cfg s jc x y) ji qi hget x y
  have hcy : qc.2 = y := hc.2.1
  have hiy : ¬ qi.2 = y := hi.2.1
  rw [if_pos hcy] at u2 u3
  rw [if_neg hiy] at v2 v3
  exact ⟨_, wc, wi, rfl, by rw [v1, u1, hcy], u2, v2, fun ha => ⟨u3 ha, v3 ha⟩, by rw [v4, u4], by rw [v5, u5], by rw [v6, u6], by rw [v7, u7]⟩

/-- How much of the density at `x` the prototype `q` has among the prototypes `ps`: Gaussians of variance `sigma`. -/
def Share (sigma : F) (exp : F → F) (ps : List (Proto F)) (x : List F) (q : Proto F) : F :=
  exp (-((List.zipWith (fun a b => (a - b) * (a - b)) x q.1).sum) / (2 * sigma)) /
    (ps.map fun r => exp (-((List.zipWith (fun a b => (a - b) * (a - b)) x r.1).sum) / (2 * sigma))).sum

theorem sq_zip (x w : List F) : sq x w = (List.zipWith (fun a b => (a - b) * (a - b)) x w).sum := by
  simp [sq, List.map_zipWith]

theorem share_all (cfg : Cfg F) (hf : Fine cfg) (ps : List (Proto F)) (x : List F) (q : Proto F) :
    prob cfg ps q.1 x none = Share cfg.sigma cfg.exp ps x q := by
  rw [prob_eq cfg hf]
  simp [Share, cost, sq_zip]

theorem share_class (cfg : Cfg F) (hf : Fine cfg) (ps : List (Proto F)) (x : List F) (q : Proto F) (y : Int) :
    prob cfg ps q.1 x (some y) = Share cfg.sigma cfg.exp (ps.filter fun r => r.2 == y) x q := by
  rw [prob_eq cfg hf]
  simp [Share, cost, sq_zip]

/-- **C220**: with vanilla gradient descent the factors are the gradients of the log likelihood ratio: for the
prototype of class `y`, `1 / sigma` times its share among the prototypes of class `y` less its share among all; for the other one,
`1 / sigma` times its share among all (the first one moved already). -/
theorem C220_amount (cfg : Cfg F) (hf : Fine cfg) (ha : cfg.adadelta = false) (s : S F) (x : List F) (y : Int) (jc ji : Nat)
    (qc qi : Proto F) (hc : Nearest s.ps x (· = y) jc qc) (hi : Nearest s.ps x (· ≠ y) ji qi) (hlt : sq x qi.1 < sq x qc.1) :
    ∃ s' wc wi, trainRow cfg s x y = .ok s' ∧ s'.ps = (s.ps.set jc (wc, y)).set ji (wi, qi.2) ∧
      (∀ f < qc.1.length, wc.getD f 0 = qc.1.getD f 0 + 1 / cfg.sigma *
        (Share cfg.sigma cfg.exp (s.ps.filter fun r => r.2 == y) x qc - Share cfg.sigma cfg.exp s.ps x qc) *
        (x.getD f 0 - qc.1.getD f 0)) ∧
      (∀ f < qi.1.length, wi.getD f 0 = qi.1.getD f 0 - 1 / cfg.sigma *
        Share cfg.sigma cfg.exp (s.ps.set jc (wc, y)) x qi * (x.getD f 0 - qi.1.getD f 0)) := by
  have htr := trainRow_wrong cfg s x y jc ji qc qi hc hi hlt
  have hne : jc ≠ ji := by
    rintro rfl
    have := hc.1
    rw [hi.1] at this
    cases this
    exact hi.2.1 hc.2.1
  have hcy : qc.2 = y := hc.2.1
  have hiy : ¬ qi.2 = y := hi.2.1
  have h1 : (update cfg s jc x y).ps = s.ps.set jc
      (qc.1.mapIdx fun f w => w + 1 / cfg.sigma * coef cfg s.ps qc x y * (x.getD f 0 - w), y) := by
    simp only [update, hc.1, ha, Bool.false_eq_true, if_false, hcy]
  have hget : (update cfg s jc x y).ps[ji]? = some qi := by
    rw [h1, List.getElem?_set_ne hne]
    exact hi.1
  have h2 : (update cfg (update cfg s jc x y) ji x y).ps = (update cfg s jc x y).ps.set ji
      (qi.1.mapIdx fun f w => w + 1 / cfg.sigma * coef cfg (update cfg s jc x y).ps qi x y * (x.getD f 0 - w), qi.2) := by
    rw [update.eq_1 cfg (update cfg s jc x y), hget]
    simp only [ha, Bool.false_eq_true, if_false]
  refine ⟨_, _, _, htr, by rw [h2, h1], fun f hlt => ?_, fun f hlt => ?_⟩
  · rw [getD_mapIdx _ _ _ hlt, coef, if_pos hcy, share_all cfg hf, share_class cfg hf]
  · rw [getD_mapIdx _ _ _ hlt, coef, if_neg hiy, share_all cfg hf]
    ring

/-- One coordinate by ADADELTA: from the averages of the squared gradients and of the squared steps before and after, for gradient `g`, step `d`. -/
def Adadelta (gamma eps : F) (root : F → F) (m m' : F × F) (g d : F) : Prop :=
  m'.1 = gamma * m.1 + (1 - gamma) * g ^ 2 ∧ d = root ((m.2 + eps) / (m'.1 + eps)) * g ∧ m'.2 = gamma * m.2 + (1 - gamma) * d ^ 2

/-- **C220**: with ADADELTA the step of every coordinate is that of ADADELTA for the same gradients, with averages for every prototype and feature that only
an update of this prototype changes. -/
theorem C220_adadelta (cfg : Cfg F) (hf : Fine cfg) (ha : cfg.adadelta = true) (s : S F) (x : List F) (y : Int) (jc ji : Nat)
    (qc qi : Proto F) (hc : Nearest s.ps x (· = y) jc qc) (hi : Nearest s.ps x (· ≠ y) ji qi) (hlt : sq x qi.1 < sq x qc.1) :
    ∃ s' wc wi, trainRow cfg s x y = .ok s' ∧ s'.ps = (s.ps.set jc (wc, y)).set ji (wi, qi.2) ∧
      (∀ f < qc.1.length, Adadelta cfg.gamma cfg.eps cfg.root (s.mom jc f) (s'.mom jc f)
        ((Share cfg.sigma cfg.exp (s.ps.filter fun r => r.2 == y) x qc - Share cfg.sigma cfg.exp s.ps x qc) *
          (x.getD f 0 - qc.1.getD f 0)) (wc.getD f 0 - qc.1.getD f 0)) ∧
      (∀ f < qi.1.length, Adadelta cfg.gamma cfg.eps cfg.root (s.mom ji f) (s'.mom ji f)
        (-(Share cfg.sigma cfg.exp (s.ps.set jc (wc, y)) x qi) * (x.getD f 0 - qi.1.getD f 0)) (wi.getD f 0 - qi.1.getD f 0)) ∧
      ∀ j f, j ≠ jc → j ≠ ji → s'.mom j f = s.mom j f := by
  have htr := trainRow_wrong cfg s x y jc ji qc qi hc hi hlt
  have hne : jc ≠ ji := by
    rintro rfl
    have := hc.1
    rw [hi.1] at this
    cases this
    exact hi.2.1 hc.2.1
  have hcy : qc.2 = y := hc.2.1
  have hiy : ¬ qi.2 = y := hi.2.1
  have h1 : (update cfg s jc x y).ps = s.ps.set jc
      (qc.1.mapIdx fun f w => w + (ada cfg (s.mom jc f) (coef cfg s.ps qc x y * (x.getD f 0 - w))).2, y) := by
    simp only [update, hc.1, ha, if_true, hcy]
  have m1 : (update cfg s jc x y).mom = fun i f => if i = jc then
      (ada cfg (s.mom jc f) (coef cfg s.ps qc x y * (x.getD f 0 - qc.1.getD f 0))).1 else s.mom i f := by
    simp only [update, hc.1, ha, if_true]
  have hget : (update cfg s jc x y).ps[ji]? = some qi := by
    rw [h1, List.getElem?_set_ne hne]
    exact hi.1
  have h2 : (update cfg (update cfg s jc x y) ji x y).ps = (update cfg s jc x y).ps.set ji
      (qi.1.mapIdx fun f w => w + (ada cfg ((update cfg s jc x y).mom ji f)
        (coef cfg (update cfg s jc x y).ps qi x y * (x.getD f 0 - w))).2, qi.2) := by
    rw [update.eq_1 cfg (update cfg s jc x y), hget]
    simp only [ha, if_true]
  have m2 : (update cfg (update cfg s jc x y) ji x y).mom = fun i f => if i = ji then
      (ada cfg ((update cfg s jc x y).mom ji f) (coef cfg (update cfg s jc x y).ps qi x y * (x.getD f 0 - qi.1.getD f 0))).1
      else (update cfg s jc x y).mom i f := by
    rw [update.eq_1 cfg (update cfg s jc x y), hget]
    simp only [ha, if_true]
  have m3 : ∀ f, (update cfg s jc x y).mom ji f = s.mom ji f := by
    intro f; rw [m1]; simp [hne.symm]
  refine ⟨_, _, _, htr, by rw [h2, h1], fun f hlt => ?_, fun f hlt => ?_, fun j f a b => ?_⟩
  · rw [getD_mapIdx _ _ _ hlt, m2]
    simp only [if_neg hne]
    rw [m1]
    simp only [if_true]
    rw [coef, if_pos hcy, share_all cfg hf, share_class cfg hf]
    simp only [ada]
    exact ⟨by ring, by ring, by ring⟩
  · rw [getD_mapIdx _ _ _ hlt, m2]
    simp only [if_true, m3, h1]
    rw [coef, if_neg hiy, share_all cfg hf]
    simp only [ada]
    exact ⟨by ring, by ring, by ring⟩
  · rw [m2]
    simp only [if_neg b]
    rw [m1]
    simp only [if_neg a]

end Verif.Prototype
