import Verif.Trees.MTRPerc
import Mathlib.Data.Rat.Sqrt

/-!
C202: the predictors in the leaves do not depend on the units of the targets.
-/

namespace Verif.Trees.MT

open Verif.Trees Verif.Trees.Grow
open Verif.Trees.HR (addInto dot norm1)

variable {O O' H : Type} {T : Nat}

/-! ### Specification -/

/-- Another unit and origin for every target. -/
structure Units (T : Nat) where
  a : V T
  b : V T
  pos : ∀ j, 0 < a j

/-- Targets in the other units. -/
def Units.y (u : Units T) (y : V T) : V T := fun j => u.a j * y j + u.b j

/-- Answers in the other units. -/
def Units.ans (u : Units T) (v : VN T) : VN T := fun j => (v j).map fun p => u.a j * p + u.b j

/-- Statistics of rows whose targets are in the other units. -/
def Units.stat (u : Units T) (s : VStat T) : VStat T :=
  ⟨s.n, fun j => u.a j * s.s j + u.b j * s.n,
    fun j => u.a j * u.a j * s.q j + 2 * u.a j * u.b j * s.s j + u.b j * u.b j * s.n⟩

/-- The row in the other units, for a tree that decides as the first tree decides at some leaf; `π` are
the observers. -/
def Rescaled (u : Units T) (π : O → O') (e : Ev T O H) (e' : Ev T O' H) : Prop :=
  e'.x = e.x ∧ e'.y = u.y e.y ∧ e'.w = e.w ∧ e'.init = e.init ∧ e'.init2 = e.init2 ∧ e'.growth = e.growth ∧
    e'.memory = e.memory ∧ ∃ l, ∀ l', e'.choose l' =
      match e.choose l with
      | .keep f => .keep fun _ => π (f l.obs)
      | .prune => .prune
      | .split t ds => .split t (ds.map u.stat)

/-- The same parameters, observers that see the targets in the other units. -/
def SameParams (u : Units T) (π : O → O') (cfg : Cfg T O H) (cfg' : Cfg T O' H) : Prop :=
  cfg'.head = cfg.head ∧ cfg'.grace = cfg.grace ∧ cfg'.lr = cfg.lr ∧ cfg'.decay = cfg.decay ∧ cfg'.lrConst = cfg.lrConst ∧
    π cfg.fresh = cfg'.fresh ∧ ∀ o x y w, π (cfg.update o x y w) = cfg'.update (π o) x (u.y y) w

/-- A root. -/
def Root (sqrt : ℚ → ℚ) : Prop := ∀ c v, 0 < c → 0 ≤ v → sqrt (c * c * v) = c * sqrt v

/-- The kinds of leaves of the two trees. -/
inductive Kind (T : Nat) (sqrt : ℚ → ℚ) : (H : Type) → Head T H → Prop where
  | mean {hd : Head T Unit} (h : hd = meanHead T) : Kind T sqrt Unit hd
  | perceptron {hd : Head T (Option (Rows T))} (h : hd = percHead T sqrt) : Kind T sqrt _ hd
  | adaptive {hd : Head T (Adapt T)} (h : hd = adaptHead T sqrt) : Kind T sqrt _ hd
  | stacked {hd : Head T (Option (Rows T × Rows T))} (h : hd = sstHead T sqrt) : Kind T sqrt _ hd
  | stackedAdaptive {hd : Head T (Stack T)} (h : hd = sstAdaptHead T sqrt) : Kind T sqrt _ hd

/-! ### The predictors -/

/-- The sums in the other units. -/
def Units.sums (u : Units T) (s : Sums T) : Sums T :=
  { s with y := fun j => u.a j * s.y j + u.b j * s.n
           yy := fun j => u.a j * u.a j * s.yy j + 2 * u.a j * u.b j * s.y j + u.b j * u.b j * s.n }

/-- The row in the other units. -/
def Units.row (u : Units T) (e : Row T) : Row T := { e with y := u.y e.y }

theorem stat_add (u : Units T) (s : Option (VStat T)) (y : V T) (w : ℚ) :
    addStat (s.map u.stat) (u.y y) w = u.stat (addStat s y w) := by
  cases s with
  | none =>
    simp only [addStat, Option.map_none, Units.stat, Units.y, VStat.mk.injEq, true_and]
    exact ⟨funext fun j => by ring, funext fun j => by ring⟩
  | some s =>
    simp only [addStat, Option.map_some, Units.stat, Units.y, VStat.mk.injEq, true_and]
    exact ⟨funext fun j => by ring, funext fun j => by ring⟩

theorem sums_add (u : Units T) (s : Sums T) (x : List ℚ) (y : V T) (w : ℚ) :
    (u.sums s).add x (u.y y) w = u.sums (s.add x y w) := by
  simp only [Sums.add, Units.sums, Units.y, Sums.mk.injEq, true_and, and_true]
  exact ⟨funext fun j => by ring, funext fun j => by ring⟩

theorem sd_units (sqrt : ℚ → ℚ) (hs : Root sqrt) (a b sq s n : ℚ) (ha : 0 < a) (hn : n ≠ 0) :
    sd sqrt (a * a * sq + 2 * a * b * s + b * b * n) (a * s + b * n) n = a * sd sqrt sq s n := by
  have h : (a * a * sq + 2 * a * b * s + b * b * n - (a * s + b * n) * (a * s + b * n) / n) / (n - 1) =
      a * a * ((sq - s * s / n) / (n - 1)) := by
    have : a * a * sq + 2 * a * b * s + b * b * n - (a * s + b * n) * (a * s + b * n) / n = a * a * (sq - s * s / n) := by
      field_simp
      ring
    rw [this, mul_div_assoc]
  unfold sd
  simp only [h]
  have haa : 0 < a * a := mul_pos ha ha
  by_cases h0 : (sq - s * s / n) / (n - 1) ≥ 0
  · rw [if_pos h0, if_pos (mul_nonneg haa.le h0), hs a _ ha h0]
  · rw [if_neg h0, if_neg (by
      intro h1
      exact h0 ((mul_nonneg_iff_of_pos_left haa).mp h1)), mul_zero]

theorem standard_units (sqrt : ℚ → ℚ) (hs : Root sqrt) (a b sq s n v : ℚ) (ha : 0 < a) (hn : n ≠ 0) :
    standard sqrt (a * a * sq + 2 * a * b * s + b * b * n) (a * s + b * n) n (a * v + b) = standard sqrt sq s n v := by
  unfold standard
  simp only [sd_units sqrt hs a b sq s n ha hn]
  by_cases h0 : sd sqrt sq s n = 0
  · rw [if_neg (by simp [h0]), if_neg (by simp [h0])]
  · rw [if_pos (mul_ne_zero ha.ne' h0), if_pos h0]
    have : a * v + b - (a * s + b * n) / n = a * (v - s / n) := by field_simp; ring
    rw [this, mul_div_mul_left _ _ ha.ne']

theorem normalize_units (u : Units T) (sqrt : ℚ → ℚ) (s : Sums T) (x : List ℚ) :
    normalize sqrt (u.sums s) x = normalize sqrt s x := rfl

theorem normalizeY_units (u : Units T) (sqrt : ℚ → ℚ) (hs : Root sqrt) (s : Sums T) (y : V T) :
    normalizeY sqrt (u.sums s) (u.y y) = normalizeY sqrt s y := by
  funext j
  unfold normalizeY
  by_cases h : s.n ≤ 1
  · rw [if_pos h, if_pos (show (u.sums s).n ≤ 1 from h)]
  · rw [if_neg h, if_neg (show ¬(u.sums s).n ≤ 1 from h)]
    exact standard_units sqrt hs _ _ _ _ _ _ (u.pos j) (by intro h0; rw [h0] at h; exact h (by decide +kernel))

theorem mean_units (u : Units T) (st : VStat T) : mean (some (u.stat st)) = u.ans (mean (some st)) := by
  funext j
  simp only [mean, Units.ans]
  by_cases h : st.n = 0
  · rw [if_pos h, if_pos (show (u.stat st).n = 0 from h)]; rfl
  · rw [if_neg h, if_neg (show ¬(u.stat st).n = 0 from h), Option.map_some]
    simp only [Units.stat]
    congr 1
    field_simp

theorem normMean_units (u : Units T) (sqrt : ℚ → ℚ) (hs : Root sqrt) (s : Sums T) (st : VStat T) :
    normMean sqrt (u.sums s) (u.stat st) = normMean sqrt s st := by
  funext j
  unfold normMean
  by_cases h : s.n ≤ 1
  · rw [if_pos h, if_pos (show (u.sums s).n ≤ 1 from h)]
  · rw [if_neg h, if_neg (show ¬(u.sums s).n ≤ 1 from h), mean_units]
    simp only [Units.ans]
    cases mean (some st) j with
    | none => rfl
    | some m =>
      simp only [Option.map_some]
      congr 1
      exact standard_units sqrt hs _ _ _ _ _ _ (u.pos j) (by intro h0; rw [h0] at h; exact h (by decide +kernel))

theorem denorm_units (u : Units T) (sqrt : ℚ → ℚ) (hs : Root sqrt) (s : Sums T) (hn : s.n ≠ 0) (p : VN T) :
    denorm sqrt (u.sums s) p = u.ans (denorm sqrt s p) := by
  funext j
  simp only [denorm, Units.ans]
  cases p j with
  | none => rfl
  | some v =>
    simp only [Option.map_some, Units.sums]
    rw [sd_units sqrt hs _ _ _ _ _ (u.pos j) hn]
    congr 1
    field_simp
    ring

theorem denormS_units (u : Units T) (sqrt : ℚ → ℚ) (hs : Root sqrt) (s : Sums T) (p : VN T) :
    denormS sqrt (u.sums s) p = u.ans (denormS sqrt s p) := by
  funext j
  unfold denormS
  simp only [Units.ans]
  have hn' : (u.sums s).n = s.n := rfl
  by_cases h0 : s.n = 0
  · rw [if_pos h0, if_pos (by rw [hn', h0])]; rfl
  · rw [if_neg h0, if_neg (by rw [hn']; exact h0)]
    have hd : (u.sums s).yy j - (u.sums s).y j * (u.sums s).y j / (u.sums s).n =
        u.a j * u.a j * (s.yy j - s.y j * s.y j / s.n) := by
      simp only [Units.sums]
      field_simp
      ring
    have haa : 0 < u.a j * u.a j := mul_pos (u.pos j) (u.pos j)
    by_cases h1 : s.n = 1 ∧ s.yy j - s.y j * s.y j / s.n > 0
    · rw [if_pos h1, if_pos ⟨h1.1, by rw [hd]; exact mul_pos haa h1.2⟩]; rfl
    · rw [if_neg h1, if_neg (by
        rintro ⟨g1, g2⟩
        rw [hd] at g2
        exact h1 ⟨g1, (mul_pos_iff_of_pos_left haa).mp g2⟩)]
      by_cases h2 : s.n = 1
      · rw [if_pos h2, if_pos (by rw [hn', h2])]
        cases p j with
        | none => rfl
        | some v =>
          simp only [Option.map_some, Units.sums]
          congr 1
          field_simp
      · rw [if_neg h2, if_neg (by rw [hn']; exact h2), denorm_units u sqrt hs s h0]
        rfl

/-- What the tree needs of a head. -/
def Head.Free (hd : Head T H) (u : Units T) : Prop :=
  (∀ s st e h, hd.learn (u.sums s) (u.stat st) (u.row e) h = hd.learn s st e h) ∧
  ∀ s st x h, hd.predict (u.sums s) (some (u.stat st)) x h = (hd.predict s (some st) x h).map u.ans

theorem meanHead_free (u : Units T) : (meanHead T).Free u :=
  ⟨fun _ _ _ _ => rfl, fun s st x h => by simp only [meanHead, Except.map, mean_units]⟩

theorem percPred_units (u : Units T) (sqrt : ℚ → ℚ) (hs : Root sqrt) (s : Sums T) (hn : s.n ≠ 0) (x : List ℚ) (w : Rows T) :
    percPred sqrt (u.sums s) x w = (percPred sqrt s x w).map u.ans := by
  unfold percPred
  rw [normalize_units]
  cases normalize sqrt s x with
  | error e => rfl
  | ok xs =>
    simp only
    by_cases hf : fits w xs.length = true
    · rw [if_pos hf, if_pos hf, denorm_units u sqrt hs s hn]; rfl
    · rw [if_neg hf, if_neg hf]; rfl

theorem ne_zero_of_not_le {n : ℚ} (h : ¬n ≤ 1) : n ≠ 0 := by
  intro h0; rw [h0] at h; exact h (by decide +kernel)

theorem percHead_free (u : Units T) (sqrt : ℚ → ℚ) (hs : Root sqrt) : (percHead T sqrt).Free u := by
  refine ⟨fun s st e h => ?_, fun s st x h => ?_⟩
  · have : percUpdate sqrt (u.sums s) (u.row e) = percUpdate sqrt s e := by
      funext w
      unfold percUpdate
      rw [normalize_units]
      simp only [Units.row, normalizeY_units u sqrt hs]
    simp only [percHead, this]
    rfl
  · simp only [percHead]
    cases h with
    | none => simp only [mean_units, Except.map]
    | some w =>
      simp only
      by_cases h : s.n ≤ 1
      · rw [if_pos h, if_pos (show (u.sums s).n ≤ 1 from h), mean_units]; rfl
      · rw [if_neg h, if_neg (show ¬(u.sums s).n ≤ 1 from h), percPred_units u sqrt hs s (ne_zero_of_not_le h)]

theorem adaptHead_free (u : Units T) (sqrt : ℚ → ℚ) (hs : Root sqrt) : (adaptHead T sqrt).Free u := by
  refine ⟨fun s st e h => ?_, fun s st x h => ?_⟩
  · have : adaptUpdate sqrt (u.sums s) (u.stat st) (u.row e) = adaptUpdate sqrt s st e := by
      funext w
      unfold adaptUpdate
      rw [normalize_units, normMean_units u sqrt hs]
      simp only [Units.row, normalizeY_units u sqrt hs]
    simp only [adaptHead, this]
    rfl
  · simp only [adaptHead]
    cases h.w with
    | none => simp only [mean_units, Except.map]
    | some w =>
      simp only
      by_cases hn : s.n ≤ 1
      · rw [if_pos hn, if_pos (show (u.sums s).n ≤ 1 from hn), mean_units]; rfl
      · rw [if_neg hn, if_neg (show ¬(u.sums s).n ≤ 1 from hn), percPred_units u sqrt hs s (ne_zero_of_not_le hn), mean_units]
        cases percPred sqrt s x w with
        | error e => rfl
        | ok p =>
          simp only [Except.map, Except.ok.injEq]
          funext j
          by_cases hc : nle (h.fP j) (h.fM j) = true
          · simp only [Units.ans, if_pos hc]
          · simp only [Units.ans, if_neg hc]

theorem stackUpdate_units (u : Units T) (sqrt : ℚ → ℚ) (hs : Root sqrt) (s : Sums T) (st : VStat T) (e : Row T) :
    stackUpdate sqrt (u.sums s) (u.stat st) (u.row e) = stackUpdate sqrt s st e := by
  funext w
  unfold stackUpdate
  rw [normalize_units, normMean_units u sqrt hs]
  simp only [Units.row, normalizeY_units u sqrt hs]

theorem stackPred_units (u : Units T) (sqrt : ℚ → ℚ) (hs : Root sqrt) (s : Sums T) (x : List ℚ) (w : Rows T × Rows T) :
    stackPred sqrt (u.sums s) x w = (stackPred sqrt s x w).map fun p => (u.ans p.1, u.ans p.2) := by
  unfold stackPred
  rw [normalize_units]
  cases normalize sqrt s x with
  | error e => rfl
  | ok xs =>
    simp only
    by_cases hf : fits w.1 xs.length = true ∧ fits w.2 (T + 1) = true
    · rw [if_pos hf, if_pos hf, denormS_units u sqrt hs, denormS_units u sqrt hs]; rfl
    · rw [if_neg hf, if_neg hf]; rfl

theorem sstHead_free (u : Units T) (sqrt : ℚ → ℚ) (hs : Root sqrt) : (sstHead T sqrt).Free u := by
  refine ⟨fun s st e h => ?_, fun s st x h => ?_⟩
  · simp only [sstHead, stackUpdate_units u sqrt hs]
    rfl
  · simp only [sstHead]
    cases h with
    | none => simp only [mean_units, Except.map]
    | some w =>
      simp only [stackPred_units u sqrt hs]
      cases stackPred sqrt s x w <;> rfl

theorem sstAdaptHead_free (u : Units T) (sqrt : ℚ → ℚ) (hs : Root sqrt) : (sstAdaptHead T sqrt).Free u := by
  refine ⟨fun s st e h => ?_, fun s st x h => ?_⟩
  · simp only [sstAdaptHead, stackUpdate_units u sqrt hs]
    rfl
  · simp only [sstAdaptHead]
    cases h.w with
    | none => simp only [mean_units, Except.map]
    | some w =>
      simp only [stackPred_units u sqrt hs, mean_units]
      cases stackPred sqrt s x w with
      | error e => rfl
      | ok p =>
        simp only [Except.map, Except.ok.injEq]
        funext j
        simp only [Units.ans]
        split <;> rfl

/-! ### The tree -/

/-- A leaf in the other units. -/
def Units.leaf (u : Units T) (π : O → O') (l : Leaf T O H) : Leaf T O' H :=
  ⟨l.active, l.stats.map u.stat, π l.obs, l.head, l.last⟩

theorem weight_units (u : Units T) (s : Option (VStat T)) : weight (s.map u.stat) = weight s := by
  cases s <;> rfl

theorem heir_units (u : Units T) (π : O → O') (cfg : Cfg T O H) (cfg' : Cfg T O' H) (hc : SameParams u π cfg cfg')
    (a : Bool) (s : Option (VStat T)) (h : H) : u.leaf π (heir cfg a s h) = heir cfg' a (s.map u.stat) h := by
  simp only [heir, Units.leaf, hc.2.2.2.2.2.1, weight_units, hc.1]

theorem new_units (u : Units T) (π : O → O') (cfg : Cfg T O H) (cfg' : Cfg T O' H) (hc : SameParams u π cfg cfg') :
    u.leaf π (newLeaf cfg) = newLeaf cfg' := by
  simp only [newLeaf, Units.leaf, hc.2.2.2.2.2.1, hc.1, Option.map_none]

theorem setActive_units (u : Units T) (π : O → O') (cfg : Cfg T O H) (cfg' : Cfg T O' H) (hc : SameParams u π cfg cfg')
    (a : Option Bool) (l : Leaf T O H) : setActive cfg' a (u.leaf π l) = u.leaf π (setActive cfg a l) := by
  cases a with
  | none => rfl
  | some a =>
    unfold setActive
    simp only
    by_cases h : l.active = a
    · rw [if_pos h, if_pos (show (u.leaf π l).active = a from h)]
    · rw [if_neg h, if_neg (show ¬(u.leaf π l).active = a from h), heir_units u π cfg cfg' hc]
      rfl

theorem ratio_units (u : Units T) (π : O → O') (cfg : Cfg T O H) (cfg' : Cfg T O' H) (hc : SameParams u π cfg cfg') (n : ℚ) :
    cfg'.ratio n = cfg.ratio n := by
  simp only [Cfg.ratio, hc.2.2.1, hc.2.2.2.1, hc.2.2.2.2.1]

theorem learn_units (u : Units T) (π : O → O') (cfg : Cfg T O H) (cfg' : Cfg T O' H) (hc : SameParams u π cfg cfg')
    (hf : cfg.head.Free u) (s : Sums T) (e : Ev T O H) (e' : Ev T O' H)
    (he : e'.x = e.x ∧ e'.y = u.y e.y ∧ e'.w = e.w ∧ e'.init = e.init ∧ e'.init2 = e.init2)
    (l : Leaf T O H) : (u.leaf π l).learn cfg' (u.sums s) e' = (l.learn cfg s e).map (u.leaf π) := by
  obtain ⟨h1, h2, h3, h4, h5⟩ := he
  unfold Leaf.learn
  simp only [h1, h2, h3, h4, h5, hc.1, Units.leaf, stat_add]
  have hr : cfg'.ratio (u.stat (addStat l.stats e.y e.w)).n = cfg.ratio (addStat l.stats e.y e.w).n :=
    ratio_units u π cfg cfg' hc _
  rw [hr]
  have := hf.1 s (addStat l.stats e.y e.w) ⟨e.x, e.y, e.w, cfg.ratio (addStat l.stats e.y e.w).n, e.init, e.init2⟩ l.head
  simp only [Units.row] at this
  rw [this]
  cases cfg.head.learn s (addStat l.stats e.y e.w)
      ⟨e.x, e.y, e.w, cfg.ratio (addStat l.stats e.y e.w).n, e.init, e.init2⟩ l.head with
  | error err => rfl
  | ok h =>
    simp only [Except.map, Option.map_some, Units.leaf]
    cases l.active <;> simp [hc.2.2.2.2.2.2]

theorem step_units (u : Units T) (π : O → O') (cfg : Cfg T O H) (cfg' : Cfg T O' H) (hc : SameParams u π cfg cfg')
    (hf : cfg.head.Free u) (h h1 : Reg T O H) (e : Ev T O H) (hs : step cfg h e = .ok h1) (h' : Reg T O' H)
    (hsum : h'.sums = u.sums h.sums) (hr : h'.root = h.root.map (G.map (u.leaf π) (Option.map u.stat))) :
    ∃ e' h1', Rescaled u π e e' ∧ step cfg' h' e' = .ok h1' ∧ h1'.sums = u.sums h1.sums ∧
      h1'.root = h1.root.map (G.map (u.leaf π) (Option.map u.stat)) := by
  obtain ⟨r0, hr0⟩ : ∃ r0, r0 = h.root.getD (.leaf (newLeaf cfg)) := ⟨_, rfl⟩
  obtain ⟨l0, hl0⟩ : ∃ l0, ∀ l, r0.route e.x = .ok (.leaf l) ∨ (r0.route e.x = .ok .missing ∧ l = newLeaf cfg) → l = l0 := by
    cases hro : r0.route e.x with
    | error err => exact ⟨newLeaf cfg, by simp⟩
    | ok en =>
      cases en with
      | leaf l => exact ⟨l, by simp⟩
      | stuck s => exact ⟨newLeaf cfg, by simp⟩
      | missing => exact ⟨newLeaf cfg, by simp⟩
  obtain ⟨lr, hlr⟩ : ∃ lr, ∀ l', l0.learn cfg (h.sums.add e.x e.y e.w) e = .ok l' → l' = lr := by
    cases l0.learn cfg (h.sums.add e.x e.y e.w) e with
    | error err => exact ⟨l0, fun l' h => by cases h⟩
    | ok l => exact ⟨l, fun l' h => by cases h; rfl⟩
  refine ⟨⟨e.x, u.y e.y, e.w, e.init, e.init2, e.growth, fun _ =>
      match e.choose lr with
      | .keep f => .keep fun _ => π (f lr.obs)
      | .prune => .prune
      | .split t ds => .split t (ds.map u.stat), e.memory⟩, ?_⟩
  generalize hE : (Ev.mk (H := H) e.x (u.y e.y) e.w e.init e.init2 e.growth (fun _ => match e.choose lr with
      | .keep f => Choice.keep fun _ => π (f lr.obs)
      | .prune => .prune
      | .split t ds => .split t (ds.map u.stat)) e.memory) = e'
  have hE1 : e'.x = e.x := by rw [← hE]
  have hE2 : e'.y = u.y e.y := by rw [← hE]
  have hE3 : e'.w = e.w := by rw [← hE]
  have hE4 : e'.growth = e.growth := by rw [← hE]
  have hE5 : e'.memory = e.memory := by rw [← hE]
  have hE7 : e'.init = e.init := by rw [← hE]
  have hE8 : e'.init2 = e.init2 := by rw [← hE]
  have hE6 : ∀ l', e'.choose l' = match e.choose lr with
      | .keep f => Choice.keep fun _ => π (f lr.obs)
      | .prune => .prune
      | .split t ds => .split t (ds.map u.stat) := fun l' => by rw [← hE]
  have hatt : attempt cfg' e' (u.leaf π lr) = (attempt cfg e lr).map (u.leaf π) (Option.map u.stat) := by
    unfold attempt
    simp only [hE4, show (u.leaf π lr).active = lr.active from rfl, show (u.leaf π lr).last = lr.last from rfl,
      show (u.leaf π lr).stats = lr.stats.map u.stat from rfl, show (u.leaf π lr).head = lr.head from rfl,
      weight_units, hc.2.1]
    by_cases hg : e.growth = true ∧ lr.active = true ∧ weight lr.stats - lr.last ≥ cfg.grace
    · rw [if_pos hg, if_pos hg, hE6]
      cases e.choose lr with
      | keep f => rfl
      | prune =>
        simp only [G.map, heir_units u π cfg cfg' hc]
      | split t ds =>
        simp only [G.map]
        rw [kidsFrom_map (u.leaf π) (Option.map u.stat) _ (fun d => heir cfg' true (some d) lr.head) u.stat
          (fun d => heir_units u π cfg cfg' hc true (some d) lr.head)]
    · rw [if_neg hg, if_neg hg]
      rfl
  unfold step at hs
  simp only at hs
  unfold step
  simp only
  have hnew := new_units u π cfg cfg' hc
  have hroot : h'.root.getD (.leaf (newLeaf cfg')) = r0.map (u.leaf π) (Option.map u.stat) := by
    rw [hr, hr0]
    cases h.root with
    | none => rw [Option.map_none, Option.getD_none, Option.getD_none, G.map, hnew]
    | some r => rfl
  rw [hroot, ← hnew, hE1, hE2, hE3, hsum, sums_add]
  have hlearn := G.learn_map (u.leaf π) (Option.map u.stat) e.x
    (fun l => (l.learn cfg (h.sums.add e.x e.y e.w) e).map (attempt cfg e))
    (fun l => l.learn cfg (h.sums.add e.x e.y e.w) e)
    (fun l => (l.learn cfg' (u.sums (h.sums.add e.x e.y e.w)) e').map (attempt cfg' e'))
    (fun l => l.learn cfg' (u.sums (h.sums.add e.x e.y e.w)) e') (newLeaf cfg)
    (learn_units u π cfg cfg' hc hf _ e e' ⟨hE1, hE2, hE3, hE7, hE8⟩ _) r0
    (fun l hl => by
      have hl' := hl0 l hl
      subst hl'
      rw [learn_units u π cfg cfg' hc hf (h.sums.add e.x e.y e.w) e e' ⟨hE1, hE2, hE3, hE7, hE8⟩]
      cases hll : l.learn cfg (h.sums.add e.x e.y e.w) e with
      | error err => rfl
      | ok l' =>
        have := hlr l' hll
        subst this
        simp only [Except.map]
        rw [hatt])
  rw [hlearn]
  rw [← hr0] at hs
  cases hrr : r0.learn e.x (fun l => (l.learn cfg (h.sums.add e.x e.y e.w) e).map (attempt cfg e))
      (fun l => l.learn cfg (h.sums.add e.x e.y e.w) e) (newLeaf cfg) with
  | error err => rw [hrr] at hs; cases hs
  | ok r =>
    rw [hrr] at hs
    cases hs
    refine ⟨_, ⟨hE1, hE2, hE3, hE7, hE8, hE4, hE5, lr, hE6⟩, rfl, rfl, ?_⟩
    simp only [Option.map_some, Option.some.injEq, hE5]
    exact G.mapLeaves_map _ _ _ _ (fun p l => setActive_units u π cfg cfg' hc _ l) r []

theorem run_units (u : Units T) (π : O → O') (cfg : Cfg T O H) (cfg' : Cfg T O' H) (hc : SameParams u π cfg cfg')
    (hf : cfg.head.Free u) (es : List (Ev T O H)) (h h1 : Reg T O H) (hs : run cfg h es = .ok h1) (h' : Reg T O' H)
    (hsum : h'.sums = u.sums h.sums) (hr : h'.root = h.root.map (G.map (u.leaf π) (Option.map u.stat))) :
    ∃ es' h1', List.Forall₂ (Rescaled u π) es es' ∧ run cfg' h' es' = .ok h1' ∧ h1'.sums = u.sums h1.sums ∧
      h1'.root = h1.root.map (G.map (u.leaf π) (Option.map u.stat)) := by
  induction es generalizing h h' with
  | nil => cases hs; exact ⟨[], h', .nil, rfl, hsum, hr⟩
  | cons e es ih =>
    rw [run] at hs
    cases hst : step cfg h e with
    | error err => rw [hst] at hs; cases hs
    | ok h2 =>
      rw [hst] at hs
      obtain ⟨e', h2', p1, p2, p3, p4⟩ := step_units u π cfg cfg' hc hf h h2 e hst h' hsum hr
      obtain ⟨es', h1', q1, q2, q3, q4⟩ := ih h2 hs h2' p3 p4
      exact ⟨e' :: es', h1', .cons p1 q1, by rw [run, p2]; exact q2, q3, q4⟩

theorem free_answers (u : Units T) (π : O → O') (cfg : Cfg T O H) (cfg' : Cfg T O' H) (hc : SameParams u π cfg cfg')
    (hf : cfg.head.Free u) (es : List (Ev T O H)) (h : Reg T O H) (hrun : run cfg {} es = .ok h) :
    ∃ es' h', List.Forall₂ (Rescaled u π) es es' ∧ run cfg' {} es' = .ok h' ∧ (h'.root.isSome ↔ h.root.isSome) ∧
      ∀ r r', h.root = some r → h'.root = some r' → ∀ x,
        predictOne cfg' h'.sums r' x = (predictOne cfg h.sums r x).map u.ans := by
  obtain ⟨es', h', p1, p2, p3, p4⟩ := run_units u π cfg cfg' hc hf es {} h hrun {}
    (by simp [Units.sums]) rfl
  refine ⟨es', h', p1, p2, by rw [p4]; simp, fun r r' hr hr' x => ?_⟩
  rw [p4, hr, Option.map_some, Option.some.injEq] at hr'
  subst hr'
  have hall := run_stats cfg es h hrun r hr
  unfold predictOne
  rw [G.route_map, p3]
  obtain ⟨q1, q2⟩ := G.route_all _ _ x r hall
  cases hro : r.route x with
  | error e => rfl
  | ok en =>
    cases en with
    | leaf l =>
      have := q1 l hro
      simp only [Except.map, End.map, hc.1]
      cases hst : l.stats with
      | none => rw [hst] at this; cases this
      | some s => simp only [Units.leaf, hst, Option.map_some]; rw [hf.2]; rfl
    | stuck s =>
      have := q2 s hro
      cases s with
      | none => cases this
      | some s => simp only [Except.map, End.map, Option.map_some, mean_units]
    | missing => rfl

/-- C202: training on targets in other units and taking the same split decisions gives the same answers
in those units, for every kind of leaf of the two multi-target trees. -/
theorem C202_units_partial (u : Units T) (π : O → O') (sqrt : ℚ → ℚ) (hs : Root sqrt) (cfg : Cfg T O H) (cfg' : Cfg T O' H)
    (hc : SameParams u π cfg cfg') (hk : Kind T sqrt H cfg.head) (es : List (Ev T O H)) (h : Reg T O H)
    (hrun : run cfg {} es = .ok h) :
    ∃ es' h', List.Forall₂ (Rescaled u π) es es' ∧ run cfg' {} es' = .ok h' ∧ (h'.root.isSome ↔ h.root.isSome) ∧
      ∀ r r', h.root = some r → h'.root = some r' → ∀ x,
        predictOne cfg' h'.sums r' x = (predictOne cfg h.sums r x).map fun v j => (v j).map fun p => u.a j * p + u.b j := by
  refine free_answers u π cfg cfg' hc ?_ es h hrun
  cases hk with
  | mean h => rw [h]; exact meanHead_free u
  | perceptron h => rw [h]; exact percHead_free u sqrt hs
  | adaptive h => rw [h]; exact adaptHead_free u sqrt hs
  | stacked h => rw [h]; exact sstHead_free u sqrt hs
  | stackedAdaptive h => rw [h]; exact sstAdaptHead_free u sqrt hs

/-- A root of the squares of rationals. -/
def exactRoot (v : ℚ) : ℚ := if Rat.sqrt v * Rat.sqrt v = v then Rat.sqrt v else 0

example : exactRoot (9 / 4) = 3 / 2 ∧ exactRoot 4 = 2 ∧ exactRoot 2 = 0 := by decide +kernel

example : Root exactRoot := by
  intro c v hc hv
  unfold exactRoot
  by_cases h : ∃ q, q * q = v
  · obtain ⟨q, rfl⟩ := h
    rw [show c * c * (q * q) = (c * q) * (c * q) by ring, Rat.sqrt_eq, Rat.sqrt_eq, if_pos (abs_mul_abs_self _),
      if_pos (abs_mul_abs_self _), abs_mul, abs_of_pos hc]
  · rw [if_neg (fun h' => h ((Rat.exists_mul_self v).mpr h')), if_neg (fun h' => h ?_), mul_zero]
    obtain ⟨q, hq⟩ := (Rat.exists_mul_self (c * c * v)).mpr h'
    exact ⟨q / c, by field_simp; linarith⟩

/-- The second target in thousandths. -/
def milli : Units 2 := ⟨![1, 1000], ![0, 0], by decide +kernel⟩

example : SameParams milli id meanCfg meanCfg := ⟨rfl, rfl, rfl, rfl, rfl, rfl, fun _ _ _ _ => rfl⟩

/-- The same rows with the second target in thousandths. -/
example : ((run meanCfg {} [meanEv 1 3 8000, meanEv (-1) 5 4000, meanEv 1 8 9000]).toOption.bind fun h => h.root.bind fun r =>
    (predictOne meanCfg h.sums r [1]).toOption.map fun v => (v 0, v 1)) = some (some 6, some 7500) := by
  decide +kernel

end Verif.Trees.MT
