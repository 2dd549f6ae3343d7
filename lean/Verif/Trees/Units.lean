import Verif.Trees.LearnMap
import Verif.Trees.GaussianBest
import Verif.Bayes.NBUnits

/-!
C288: does the unit of a numeric attribute matter to `HoeffdingTreeClassifier`?  The tree of `Trees/Learn.lean` with the
observers it really uses for numeric attributes (numeric_attribute_class_observer_gaussian.py).

Simplifications: labels are natural numbers in the observers; the observers of nominal attributes, the split criterion and
the decision from the merits (`Trees/Nominal.lean`, `Trees/Criteria.lean`, `Trees/Attempt.lean`) are arbitrary functions;
whether growth is allowed and what the memory manager does is given with every row.
-/

namespace Verif.Trees.HL

open Verif.Trees
open Verif.Bayes (rescale rescale_get density)

/-! ### Model -/

/-- The test an observer proposes for its attribute. -/
inductive Proposal where
  | num (v : ℚ)
  | nom (v : ℚ)
  | multi (vals : List ℚ)

/-- The test on attribute `j` (numeric_attribute_class_observer_gaussian.py 60;
nominal_attribute_class_observer.py, its two tests). -/
def Proposal.test (j : Nat) : Proposal → Test
  | .num v => .num ⟨j, v, true⟩
  | .nom v => .nom ⟨j, v⟩
  | .multi vals => .multi (MultiTest.create j vals)

/-- An attribute observer: Gaussian, of another kind, or disabled (`AttributeObserverNull`). -/
inductive AttObs (P : Type) where
  | gauss (o : GObs)
  | other (p : P)
  | off

/-- Decision of a split attempt (hoeffding_tree.py 576-631): keep the leaf and disable attributes, prune, or take the
`k`-th suggestion. -/
inductive Pick where
  | keep (poor : List Nat)
  | prune
  | split (k : Nat)

/-- Parameters.  `start`: an observer for each attribute when the first row arrives (base.py 434-441); `bins`:
`num_bin_options`; `dens`, `cum`: normal density and distribution function by variance and distance from the mean;
`merit`: criterion; `update`, `propose`, `prob`: observers of other kinds; `pick`: decision from the class statistics,
and from attribute and merit of every suggestion. -/
structure Par (P : Type) where
  start : List (AttObs P)
  bins : Nat
  dens : ℚ → ℚ → ℚ
  cum : ℚ → ℚ → ℚ
  merit : Stats → List Stats → WithBot ℚ
  update : P → ℚ → Int → ℚ → P
  propose : P → Stats → Option (Proposal × List Stats × WithBot ℚ)
  prob : P → ℚ → Int → ℚ
  noPreprune : Bool
  pick : Stats → List (Option Nat × WithBot ℚ) → Pick

variable {P : Type}

/-- `obs.update`. -/
def AttObs.update (par : Par P) (o : AttObs P) (v : ℚ) (y : Int) (w : ℚ) : AttObs P :=
  match o with
  | .gauss g => .gauss (gUpdate g y.toNat v w)
  | .other p => .other (par.update p v y w)
  | .off => .off

/-- `update_attribute_observers`, base.py 432-442: the observers are made when the first row arrives. -/
def updateAll (par : Par P) (obs : List (AttObs P)) (x : List ℚ) (y : Int) (w : ℚ) : List (AttObs P) :=
  List.zipWith (fun o v => o.update par v y w) (if obs.isEmpty then par.start else obs) x

/-- `normal_probability((value - mean) / std_dev)`, gaussian_estimator.py 86. -/
def Par.cdf (par : Par P) (e : Est) (v : ℚ) : ℚ := par.cum e.variance (v - e.mean)

/-- `[lhs_dist, rhs_dist]`, numeric_attribute_class_observer_gaussian.py 84-101. -/
def sides (l : List (Nat × Option ℚ × Option ℚ)) : List Stats :=
  [l.filterMap fun p => p.2.1.map fun w => ((p.1 : Int), w), l.filterMap fun p => p.2.2.map fun w => ((p.1 : Int), w)]

/-- `get_best_evaluated_split_suggestion`: test, branch distributions and merit. -/
def AttObs.best (par : Par P) (s : Stats) : AttObs P → Option (Proposal × List Stats × WithBot ℚ)
  | .gauss g => (gBest (density par.dens) par.cdf (fun d => par.merit s (sides d)) par.bins g).map
      fun r => (.num r.1, sides r.2.1, r.2.2)
  | .other p => par.propose p s
  | .off => none

/-- `get_best_split_suggestions`, base.py 444-480: attribute, test and distributions (`none`: the null split), merit. -/
def suggestions (par : Par P) (s : Stats) (obs : List (AttObs P)) : List (Option (Nat × Proposal × List Stats) × WithBot ℚ) :=
  (if par.noPreprune then [] else [(none, par.merit s [s])]) ++
    obs.zipIdx.filterMap fun q => (q.1.best par s).map fun b => (some (q.2, b.1, b.2.1), b.2.2)

/-- `disable_attribute`, base.py 482-491; nodes with naive Bayes keep all observers (htc_nodes.py 164-175, 190-201). -/
def disable (poor : List Nat) (obs : List (AttObs P)) : List (AttObs P) :=
  obs.zipIdx.map fun q => if q.2 ∈ poor then .off else q.1

/-- `_attempt_to_split`. -/
def chooseSplit (par : Par P) (kind : Kind) (l : Leaf (List (AttObs P))) : Choice (List (AttObs P)) :=
  let sugs := suggestions par l.stats l.obs
  match par.pick l.stats (sugs.map fun s => (s.1.map fun t => t.1, s.2)) with
  | .keep poor => .keep (if kind = .mc then disable poor else id)
  | .prune => .prune
  | .split k =>
    match sugs[k]? with
    | some (some (j, p, ds), _) => .split (p.test j) ds
    | _ => .prune

/-- `probability_of_attribute_value_given_class`. -/
def AttObs.prob (par : Par P) (o : AttObs P) (v : ℚ) (c : Int) : ℚ :=
  match o with
  | .gauss g => Bayes.gProb (density par.dens) g v c.toNat
  | .other p => par.prob p v c
  | .off => 0

/-- `do_naive_bayes_prediction`, bayes/utils.py 28-42. -/
def naiveBayes (par : Par P) (s : Stats) (obs : List (AttObs P)) (x : List ℚ) : List (Int × ℚ) :=
  if s = [] ∨ total s = 0 then [(0, 0)]
  else s.map fun p => (p.1, (List.zipWith (fun o v => o.prob par v p.1) obs x).foldl (· * ·) (p.2 / total s))

/-- The tree with these observers. -/
def Par.cfg (par : Par P) (kind : Kind) (nbThreshold grace : ℚ) : Cfg (List (AttObs P)) :=
  ⟨kind, nbThreshold, grace, [], updateAll par, naiveBayes par⟩

/-- A training row, whether growth is allowed when it arrives and what the memory manager does afterwards. -/
structure Row where
  x : List ℚ
  y : Int
  w : ℚ
  growth : Bool
  memory : List (Path × Bool)

/-- Training on the row. -/
def Par.ev (par : Par P) (kind : Kind) (r : Row) : Ev (List (AttObs P)) := ⟨r.x, r.y, r.w, r.growth, chooseSplit par kind, r.memory⟩

/-! ### Specification -/

/-- A law of the normal distribution function: it does not depend on the unit. -/
def ScaleFree (cum : ℚ → ℚ → ℚ) : Prop := ∀ a v d, 0 < a → cum (a ^ 2 * v) (a * d) = cum v d

/-- `normal_probability((value - mean) / std_dev)` over the reals obeys it. -/
theorem normal_scale_free (normal : ℝ → ℝ) (a v d : ℝ) (ha : 0 < a) : normal (a * d / √(a ^ 2 * v)) = normal (d / √v) := by
  rw [Real.sqrt_mul (sq_nonneg a), Real.sqrt_sq ha.le, mul_div_mul_left _ _ ha.ne']

/-- The row with attribute `i` in another unit. -/
def Row.rescale (i : Nat) (a b : ℚ) (r : Row) : Row := { r with x := Bayes.rescale i a b r.x }

/-- Is `att` the attribute `i` of `n` (negative positions count from the end)? -/
def Refers (n i : Nat) (att : Int) : Prop := att = i ∨ att = (i : Int) - n

instance (n i : Nat) (att : Int) : Decidable (Refers n i att) := inferInstanceAs (Decidable (_ ∨ _))

/-- The test with the values of attribute `i` in another unit. -/
def Test.rescale (n i : Nat) (a b : ℚ) : Test → Test
  | .num t => .num (if Refers n i t.att then { t with value := a * t.value + b } else t)
  | .nom t => .nom (if Refers n i t.att then { t with value := a * t.value + b } else t)
  | .multi m => .multi (if Refers n i m.att then
      ⟨m.att, m.map.map fun p => (a * p.1 + b, p.2), m.rev.map fun p => (p.1, a * p.2 + b)⟩ else m)

/-- What a leaf knows of the classes. -/
def Leaf.classes {O : Type} (l : Leaf O) : Leaf Unit := ⟨l.active, l.stats, (), 0, 0, l.last⟩

/-! ### Observers in another unit -/

section
variable (a b : ℚ)

/-- The estimator in another unit. -/
def Est.rescale (e : Est) : Est := ⟨e.weightSum, a * e.mean + b, a ^ 2 * e.varSum⟩

/-- The Gaussian observer in another unit. -/
def gRescale (g : GObs) : GObs := g.map fun p => (p.1, ⟨Est.rescale a b p.2.est, a * p.2.lo + b, a * p.2.hi + b⟩)

theorem add_rescale (e : Est) (v w : ℚ) : (Est.rescale a b e).add (some (a * v + b)) w = Est.rescale a b (e.add (some v) w) := by
  unfold Est.rescale Est.add
  by_cases h : e.weightSum > 0
  · simp only [if_pos h, Est.mk.injEq, true_and]
    exact ⟨by ring, by ring⟩
  · simp only [if_neg h]

theorem first_rescale (v w : ℚ) : ({} : Est).add (some (a * v + b)) w = Est.rescale a b (({} : Est).add (some v) w) := by
  simp [Est.add, Est.rescale]

variable (ha : 0 < a)
include ha

theorem aff_lt (u v : ℚ) : a * u + b < a * v + b ↔ u < v := by
  rw [add_lt_add_iff_right, mul_lt_mul_iff_right₀ ha]

theorem aff_le (u v : ℚ) : a * u + b ≤ a * v + b ↔ u ≤ v := by
  rw [add_le_add_iff_right, mul_le_mul_iff_right₀ ha]

theorem aff_inj (u v : ℚ) : a * u + b = a * v + b ↔ u = v := by
  rw [add_left_inj, mul_right_inj' ha.ne']

theorem gUpdate_rescale (g : GObs) (c : Nat) (v w : ℚ) :
    gUpdate (gRescale a b g) c (a * v + b) w = gRescale a b (gUpdate g c v w) := by
  induction g with
  | nil => simp [gRescale, gUpdate, first_rescale]
  | cons p g ih =>
    obtain ⟨d, r⟩ := p
    have hc : gRescale a b ((d, r) :: g) = (d, ⟨Est.rescale a b r.est, a * r.lo + b, a * r.hi + b⟩) :: gRescale a b g := rfl
    rw [hc, gUpdate, gUpdate]
    by_cases h1 : c = d
    · rw [if_pos h1, if_pos h1]
      simp only [gRescale, List.map_cons, ClsRec.update, add_rescale, gt_iff_lt, aff_lt a b ha]
      congr 3 <;> split <;> rfl
    · rw [if_neg h1, if_neg h1]
      by_cases h2 : c < d
      · rw [if_pos h2, if_pos h2]
        simp only [gRescale, List.map_cons, first_rescale]
      · rw [if_neg h2, if_neg h2, ih]
        rfl

theorem variance_rescale (e : Est) : (Est.rescale a b e).variance = a ^ 2 * e.variance := by
  unfold Est.variance Est.rescale
  by_cases h : e.weightSum > 1
  · rw [if_pos h, if_pos h]; ring
  · rw [if_neg h, if_neg h]; ring

theorem variance_pos_rescale (e : Est) : 0 < (Est.rescale a b e).variance ↔ 0 < e.variance := by
  rw [variance_rescale a b ha]
  exact mul_pos_iff_of_pos_left (by positivity)

/-- The weights left and right of a threshold do not depend on the unit, although the density does. -/
theorem weights_rescale (par : Par P) (hs : ScaleFree par.cum) (e : Est) (v : ℚ) :
    let t := e.weights (density par.dens) par.cdf v
    let t' := (Est.rescale a b e).weights (density par.dens) par.cdf (a * v + b)
    t'.1 + t'.2.1 = t.1 + t.2.1 ∧ t'.2.2 = t.2.2 := by
  simp only [Est.weights, gt_iff_lt, variance_pos_rescale a b ha]
  have hw : (Est.rescale a b e).weightSum = e.weightSum := rfl
  have hm : (Est.rescale a b e).mean = a * e.mean + b := rfl
  by_cases hv : 0 < e.variance
  · have hc : par.cdf (Est.rescale a b e) (a * v + b) = par.cdf e v := by
      unfold Par.cdf
      rw [variance_rescale a b ha, hm, show a * v + b - (a * e.mean + b) = a * (v - e.mean) by ring, hs a _ _ ha]
    simp only [if_pos hv, hc, hw]
    refine ⟨by ring, ?_⟩
    have e1 : ∀ d, e.weightSum - d - (par.cdf e v * e.weightSum - d) = e.weightSum - par.cdf e v * e.weightSum := by
      intro d; ring
    rw [e1, e1]
  · have hd : density par.dens (Est.rescale a b e) (a * v + b) = density par.dens e v := by
      simp only [density, variance_pos_rescale a b ha, hv, if_false, hw, hm, aff_inj a b ha]
    simp only [if_neg hv, hd, hw, hm, aff_lt a b ha, and_self]

theorem gSplit_rescale (par : Par P) (hs : ScaleFree par.cum) (g : GObs) (v : ℚ) :
    gSplit (density par.dens) par.cdf (gRescale a b g) (a * v + b) = gSplit (density par.dens) par.cdf g v := by
  unfold gSplit gRescale
  rw [List.map_map]
  apply List.map_congr_left
  intro p _
  obtain ⟨h1, h2⟩ := weights_rescale a b ha par hs p.2.est v
  simp only [Function.comp_apply, aff_lt a b ha, ge_iff_le, aff_le a b ha, h1, h2]
  rfl

theorem splitPoints_rescale (n : Nat) (g : GObs) : splitPoints n (gRescale a b g) = (splitPoints n g).map fun v => a * v + b := by
  cases g with
  | nil => rfl
  | cons p g =>
    obtain ⟨c, r⟩ := p
    have hc : gRescale a b ((c, r) :: g) = (c, ⟨Est.rescale a b r.est, a * r.lo + b, a * r.hi + b⟩) :: gRescale a b g := rfl
    have hlo : ∀ (g : GObs) (m : ℚ), (gRescale a b g).foldl (fun m p => if p.2.lo < m then p.2.lo else m) (a * m + b) =
        a * g.foldl (fun m p => if p.2.lo < m then p.2.lo else m) m + b := by
      intro g
      induction g with
      | nil => intro m; rfl
      | cons p g ih =>
        intro m
        simp only [gRescale, List.map_cons, List.foldl_cons, aff_lt a b ha]
        rw [← ih]
        by_cases h : p.2.lo < m
        · simp only [if_pos h]; rfl
        · simp only [if_neg h]; rfl
    have hhi : ∀ (g : GObs) (m : ℚ), (gRescale a b g).foldl (fun m p => if p.2.hi > m then p.2.hi else m) (a * m + b) =
        a * g.foldl (fun m p => if p.2.hi > m then p.2.hi else m) m + b := by
      intro g
      induction g with
      | nil => intro m; rfl
      | cons p g ih =>
        intro m
        simp only [gRescale, List.map_cons, List.foldl_cons, gt_iff_lt, aff_lt a b ha]
        rw [← ih]
        by_cases h : m < p.2.hi
        · simp only [if_pos h]; rfl
        · simp only [if_neg h]; rfl
    rw [hc]
    simp only [splitPoints, hlo, hhi]
    generalize g.foldl (fun m p => if p.2.lo < m then p.2.lo else m) r.lo = lo
    generalize g.foldl (fun m p => if p.2.hi > m then p.2.hi else m) r.hi = hi
    have hp : ((List.range n).map fun k : Nat => a * lo + b + (a * hi + b - (a * lo + b)) / (n + 1) * ((k : ℚ) + 1)) =
        ((List.range n).map fun k : Nat => lo + (hi - lo) / (n + 1) * ((k : ℚ) + 1)).map fun v => a * v + b := by
      rw [List.map_map]
      apply List.map_congr_left
      intro k _
      simp only [Function.comp_apply]
      ring
    rw [hp, List.filter_map]
    congr 1
    apply List.filter_congr
    intro v _
    simp only [Function.comp_apply, aff_lt a b ha]

theorem bestPoint_rescale {D : Type} (dist dist' : ℚ → D) (merit : D → WithBot ℚ) (h : ∀ v, dist' (a * v + b) = dist v)
    (l : List ℚ) (best : Option (ℚ × D × WithBot ℚ)) :
    bestPoint dist' merit (l.map fun v => a * v + b) (best.map fun r => (a * r.1 + b, r.2)) =
      (bestPoint dist merit l best).map fun r => (a * r.1 + b, r.2) := by
  induction l generalizing best with
  | nil => rfl
  | cons s l ih =>
    cases best with
    | none =>
      simp only [List.map_cons, Option.map_none, bestPoint, h]
      exact ih (some (s, dist s, merit (dist s)))
    | some r =>
      simp only [List.map_cons, Option.map_some, bestPoint, h]
      by_cases hm : merit (dist s) > r.2.2
      · simp only [if_pos hm]; exact ih (some (s, dist s, merit (dist s)))
      · simp only [if_neg hm]; exact ih (some r)

theorem gBest_rescale (par : Par P) (hs : ScaleFree par.cum) (merit : List (Nat × Option ℚ × Option ℚ) → WithBot ℚ) (n : Nat) (g : GObs) :
    gBest (density par.dens) par.cdf merit n (gRescale a b g) =
      (gBest (density par.dens) par.cdf merit n g).map fun r => (a * r.1 + b, r.2) := by
  unfold gBest
  rw [splitPoints_rescale a b ha]
  exact bestPoint_rescale a b ha _ _ merit (gSplit_rescale a b ha par hs g) _ none

/-! ### Tests in another unit -/

theorem rescale_length (i : Nat) (x : List ℚ) : (rescale i a b x).length = x.length := by simp [rescale]

omit ha in
theorem xget_rescale (n i : Nat) (x : List ℚ) (hx : x.length = n) (hi : i < n) (att : Int) :
    xget (rescale i a b x) att = (xget x att).map fun v => if Refers n i att then a * v + b else v := by
  unfold xget
  have hl : (rescale i a b x).length = x.length := by simp [rescale]
  rw [hl]
  by_cases h : att < 0
  · rw [if_pos h, if_pos h]
    by_cases h2 : x.length < att.natAbs
    · rw [if_pos h2, if_pos h2]; rfl
    · rw [if_neg h2, if_neg h2, rescale_get]
      have hr : (i = x.length - att.natAbs) ↔ Refers n i att := by unfold Refers; omega
      by_cases e : i = x.length - att.natAbs
      · simp only [if_pos e, if_pos (hr.1 e)]
        cases x[x.length - att.natAbs]? <;> rfl
      · have e' : ¬ Refers n i att := fun h => e (hr.2 h)
        simp only [if_neg e, if_neg e']
        cases x[x.length - att.natAbs]? <;> rfl
  · rw [if_neg h, if_neg h, rescale_get]
    have hr : (i = att.toNat) ↔ Refers n i att := by unfold Refers; omega
    by_cases e : i = att.toNat
    · simp only [if_pos e, if_pos (hr.1 e)]
      cases x[att.toNat]? <;> rfl
    · have e' : ¬ Refers n i att := fun h => e (hr.2 h)
      simp only [if_neg e, if_neg e']
      cases x[att.toNat]? <;> rfl

theorem lookup_rescale (l : List (ℚ × Nat)) (v : ℚ) :
    (l.map fun p => (a * p.1 + b, p.2)).lookup (a * v + b) = l.lookup v := by
  induction l with
  | nil => rfl
  | cons p l ih =>
    obtain ⟨k, c⟩ := p
    rw [List.map_cons, List.lookup_cons, List.lookup_cons, ih]
    have : (a * v + b == a * k + b) = (v == k) := by
      rw [Bool.eq_iff_iff, beq_iff_eq, beq_iff_eq]; exact aff_inj a b ha v k
    simp only [this]

theorem dset_rescale (l : List (ℚ × Nat)) (v : ℚ) (c : Nat) :
    dset (l.map fun p => (a * p.1 + b, p.2)) (a * v + b) c = (dset l v c).map fun p => (a * p.1 + b, p.2) := by
  induction l with
  | nil => rfl
  | cons p l ih =>
    obtain ⟨k, d⟩ := p
    simp only [List.map_cons, dset, aff_inj a b ha, ih]
    by_cases e : v = k
    · rw [if_pos e, if_pos e]; rfl
    · rw [if_neg e, if_neg e]; rfl

omit ha in
theorem dset_rev (l : List (Nat × ℚ)) (c : Nat) (v : ℚ) :
    dset (l.map fun p => (p.1, a * p.2 + b)) c (a * v + b) = (dset l c v).map fun p => (p.1, a * p.2 + b) := by
  induction l with
  | nil => rfl
  | cons p l ih =>
    obtain ⟨k, d⟩ := p
    simp only [List.map_cons, dset, ih]
    by_cases e : c = k
    · rw [if_pos e, if_pos e]; rfl
    · rw [if_neg e, if_neg e]; rfl

theorem branch_rescale (n i : Nat) (hi : i < n) (x : List ℚ) (hx : x.length = n) (t : Test) :
    (t.rescale n i a b).branch (rescale i a b x) = t.branch x := by
  cases t with
  | num t =>
    have e : ((if Refers n i t.att then { t with value := a * t.value + b } else t : NumTest)).att = t.att := by split <;> rfl
    simp only [Test.rescale, Test.branch, NumTest.branch, e, rescale_length a b ha]
    by_cases h : t.att > x.length ∨ t.att < 0
    · rw [if_pos h, if_pos h]
    · rw [if_neg h, if_neg h, xget_rescale a b n i x hx hi]
      cases xget x t.att with
      | error e => rfl
      | ok v =>
        by_cases hr : Refers n i t.att
        · simp only [if_pos hr, Except.map, aff_inj a b ha, aff_lt a b ha]
        · simp only [if_neg hr, Except.map]
  | nom t =>
    have e : ((if Refers n i t.att then { t with value := a * t.value + b } else t : NomTest)).att = t.att := by split <;> rfl
    simp only [Test.rescale, Test.branch, NomTest.branch, e, rescale_length a b ha]
    by_cases h : t.att > x.length ∨ t.att < 0
    · rw [if_pos h, if_pos h]
    · rw [if_neg h, if_neg h, xget_rescale a b n i x hx hi]
      cases xget x t.att with
      | error e => rfl
      | ok v =>
        by_cases hr : Refers n i t.att
        · simp only [if_pos hr, Except.map, aff_inj a b ha]
        · simp only [if_neg hr, Except.map]
  | multi t =>
    have e : ((if Refers n i t.att then
      ⟨t.att, t.map.map fun p => (a * p.1 + b, p.2), t.rev.map fun p => (p.1, a * p.2 + b)⟩ else t : MultiTest)).att = t.att := by
      split <;> rfl
    simp only [Test.rescale, Test.branch, MultiTest.branch, e, rescale_length a b ha]
    by_cases h : t.att > x.length ∨ t.att < 0
    · rw [if_pos h, if_pos h]
    · rw [if_neg h, if_neg h, xget_rescale a b n i x hx hi]
      cases xget x t.att with
      | error e => rfl
      | ok v =>
        by_cases hr : Refers n i t.att
        · simp only [if_pos hr, Except.map, lookup_rescale a b ha]
        · simp only [if_neg hr, Except.map]

omit ha in
theorem addBranch_att (m : MultiTest) (v : ℚ) (id : Nat) (m2 : MultiTest) (h : m.addBranch v = .ok (id, m2)) : m2.att = m.att := by
  unfold MultiTest.addBranch at h
  split at h
  · cases h
  · cases h; rfl

theorem multi_rescale (n i : Nat) (hi : i < n) (x : List ℚ) (hx : x.length = n) (m : MultiTest) :
    ∃ m1 : MultiTest, Test.rescale n i a b (.multi m) = .multi m1 ∧
      match xget x m.att with
      | .error err => xget (rescale i a b x) m1.att = .error err
      | .ok v => ∃ v1, xget (rescale i a b x) m1.att = .ok v1 ∧
        match m.addBranch v with
        | .error err => m1.addBranch v1 = .error err
        | .ok (id, m2) => ∃ m3, m1.addBranch v1 = .ok (id, m3) ∧ Test.rescale n i a b (.multi m2) = .multi m3 := by
  refine ⟨_, rfl, ?_⟩
  have hatt : ((if Refers n i m.att then
      ⟨m.att, m.map.map fun p => (a * p.1 + b, p.2), m.rev.map fun p => (p.1, a * p.2 + b)⟩ else m : MultiTest)).att = m.att := by
    split <;> rfl
  rw [hatt, xget_rescale a b n i x hx hi]
  cases xget x m.att with
  | error err => rfl
  | ok v =>
    refine ⟨_, rfl, ?_⟩
    obtain ⟨att, mp, rev⟩ := m
    by_cases hr : Refers n i att
    · simp only [if_pos hr]
      cases mp with
      | nil => rfl
      | cons p rest =>
        obtain ⟨k, c⟩ := p
        simp only [MultiTest.addBranch, List.map_cons]
        have hs : (rest.map fun p => (a * p.1 + b, p.2)).map Prod.snd = rest.map Prod.snd := by
          rw [List.map_map]; rfl
        rw [hs]
        refine ⟨_, rfl, ?_⟩
        simp only [Test.rescale, if_pos hr]
        rw [← dset_rescale a b ha, ← dset_rev]
        rfl
    · simp only [if_neg hr]
      cases hq : MultiTest.addBranch ⟨att, mp, rev⟩ v with
      | error err => rfl
      | ok q =>
        obtain ⟨id, m2⟩ := q
        refine ⟨m2, rfl, ?_⟩
        simp only [Test.rescale]
        rw [if_neg (by rw [addBranch_att _ _ _ _ hq]; exact hr)]

/-! ### Leaves in another unit -/

/-- The observer in another unit. -/
def AttObs.rescale : AttObs P → AttObs P
  | .gauss g => .gauss (gRescale a b g)
  | o => o

/-- The leaf with the observer of attribute `i` in another unit. -/
def Leaf.rescale (i : Nat) (l : Leaf (List (AttObs P))) : Leaf (List (AttObs P)) :=
  { l with obs := l.obs.modify i (AttObs.rescale a b) }

/-- Attribute `i` is observed by a Gaussian observer or not at all. -/
def Numeric (i : Nat) (obs : List (AttObs P)) : Prop := ∀ p, obs[i]? ≠ some (.other p)

omit ha in
theorem numeric_update (par : Par P) (i : Nat) (hs : Numeric i par.start) (obs : List (AttObs P)) (h : Numeric i obs) (x : List ℚ)
    (y : Int) (w : ℚ) : Numeric i (updateAll par obs x y w) := by
  intro p hp
  unfold updateAll at hp
  rw [List.getElem?_zipWith] at hp
  have h' : Numeric i (if obs.isEmpty then par.start else obs) := by split <;> assumption
  cases h1 : (if obs.isEmpty then par.start else obs)[i]? with
  | none => rw [h1] at hp; cases hp
  | some o =>
    rw [h1] at hp
    cases h2 : x[i]? with
    | none => rw [h2] at hp; cases hp
    | some v =>
      rw [h2] at hp
      cases o with
      | gauss g => cases hp
      | off => cases hp
      | other q => exact h' q h1

omit ha in
theorem numeric_disable (i : Nat) (obs : List (AttObs P)) (h : Numeric i obs) (poor : List Nat) : Numeric i (disable poor obs) := by
  intro p hp
  unfold disable at hp
  rw [List.getElem?_map, List.getElem?_zipIdx] at hp
  cases h1 : obs[i]? with
  | none => rw [h1] at hp; cases hp
  | some o =>
    rw [h1] at hp
    simp only [Option.map_some, Option.some.injEq] at hp
    split at hp
    · cases hp
    · exact h p (by rw [h1, hp])

omit ha in
theorem modify_isEmpty {α : Type} (l : List α) (i : Nat) (f : α → α) : (l.modify i f).isEmpty = l.isEmpty := by
  cases l with
  | nil => simp
  | cons x l => cases i <;> simp

theorem updateAll_rescale (par : Par P) (i : Nat) (hg : par.start[i]? = some (.gauss [])) (obs : List (AttObs P)) (h : Numeric i obs)
    (x : List ℚ) (y : Int) (w : ℚ) :
    updateAll par (obs.modify i (AttObs.rescale a b)) (rescale i a b x) y w =
      (updateAll par obs x y w).modify i (AttObs.rescale a b) := by
  unfold updateAll
  rw [modify_isEmpty]
  have hstart : par.start.modify i (AttObs.rescale a b) = par.start := by
    apply List.ext_getElem?
    intro j
    rw [List.getElem?_modify]
    by_cases e : i = j
    · subst e
      rw [hg]; simp [AttObs.rescale, gRescale]
    · simp [e]
  have e1 : (if obs.isEmpty then par.start else obs.modify i (AttObs.rescale a b)) =
      (if obs.isEmpty then par.start else obs).modify i (AttObs.rescale a b) := by
    split
    · exact hstart.symm
    · rfl
  have h' : Numeric i (if obs.isEmpty then par.start else obs) := by
    split
    · intro p hp; rw [hg] at hp; cases hp
    · exact h
  rw [e1]
  generalize (if obs.isEmpty then par.start else obs) = o at h'
  apply List.ext_getElem?
  intro j
  rw [List.getElem?_zipWith, List.getElem?_modify, List.getElem?_modify, List.getElem?_zipWith, rescale_get]
  by_cases e : i = j
  · subst e
    cases h1 : o[i]? with
    | none => rfl
    | some q =>
      cases h2 : x[i]? with
      | none => simp
      | some v =>
        cases q with
        | gauss g => simp [AttObs.update, AttObs.rescale, gUpdate_rescale a b ha]
        | off => simp [AttObs.update, AttObs.rescale]
        | other p => exact absurd h1 (h' p)
  · cases h1 : o[j]? with
    | none => rfl
    | some q =>
      cases h2 : x[j]? with
      | none => simp [e]
      | some v => simp [e]

/-- The threshold of a proposal in another unit. -/
def Proposal.rescale : Proposal → Proposal
  | .num v => .num (a * v + b)
  | p => p

theorem best_rescale (par : Par P) (hs : ScaleFree par.cum) (s : Stats) (o : AttObs P) (h : ∀ p, o ≠ .other p) :
    (o.rescale a b).best par s = (o.best par s).map fun r => (r.1.rescale a b, r.2) := by
  cases o with
  | gauss g =>
    simp only [AttObs.rescale, AttObs.best, gBest_rescale a b ha par hs, Option.map_map]
    rfl
  | off => rfl
  | other p => exact absurd rfl (h p)

/-- A suggestion in another unit. -/
def suggRescale (i : Nat) (s : Option (Nat × Proposal × List Stats) × WithBot ℚ) : Option (Nat × Proposal × List Stats) × WithBot ℚ :=
  (s.1.map fun t => (t.1, if t.1 = i then t.2.1.rescale a b else t.2.1, t.2.2), s.2)

theorem suggestions_rescale (par : Par P) (hs : ScaleFree par.cum) (i : Nat) (s : Stats) (obs : List (AttObs P)) (h : Numeric i obs) :
    suggestions par s (obs.modify i (AttObs.rescale a b)) = (suggestions par s obs).map (suggRescale a b i) := by
  unfold suggestions
  rw [List.map_append, List.map_filterMap]
  congr 1
  · split <;> rfl
  · have e : (obs.modify i (AttObs.rescale a b)).zipIdx = obs.zipIdx.map fun q => (if q.2 = i then q.1.rescale a b else q.1, q.2) := by
      apply List.ext_getElem?
      intro j
      rw [List.getElem?_zipIdx, List.getElem?_modify, List.getElem?_map, List.getElem?_zipIdx]
      cases obs[j]? with
      | none => rfl
      | some o =>
        by_cases e : i = j
        · subst e; simp
        · have e' : ¬ j = i := fun h => e h.symm
          simp [e, e']
    rw [e, List.filterMap_map]
    apply List.filterMap_congr
    intro q hq
    simp only [Function.comp_apply]
    by_cases e : q.2 = i
    · have hq' : ∀ p, q.1 ≠ .other p := by
        intro p hp
        obtain ⟨o, j⟩ := q
        rw [List.mk_mem_zipIdx_iff_getElem?] at hq
        simp only [] at e hp
        subst e
        rw [hp] at hq
        exact h p hq
      rw [if_pos e, best_rescale a b ha par hs s q.1 hq', Option.map_map, Option.map_map]
      congr 1
      funext r
      simp [suggRescale, e]
    · rw [if_neg e, Option.map_map]
      congr 1
      funext r
      simp [suggRescale, e]

theorem test_rescale (n i : Nat) (hi : i < n) (j : Nat) (p : Proposal) (hp : j = i → ∃ v, p = .num v) :
    Test.rescale n i a b (p.test j) = (if j = i then p.rescale a b else p).test j := by
  have hr : Refers n i (j : Int) ↔ j = i := by unfold Refers; omega
  by_cases e : j = i
  · obtain ⟨v, rfl⟩ := hp e
    simp only [Proposal.test, Test.rescale, if_pos (hr.2 e), if_pos e, Proposal.rescale]
  · have e' : ¬ Refers n i (j : Int) := fun h => e (hr.1 h)
    rw [if_neg e]
    cases p <;> simp only [Proposal.test, Test.rescale, MultiTest.create, if_neg e']

omit ha in
theorem suggestion_num (par : Par P) (i : Nat) (s : Stats) (obs : List (AttObs P)) (h : Numeric i obs) (k : Nat) (p : Proposal)
    (ds : List Stats) (m : WithBot ℚ) (hk : (suggestions par s obs)[k]? = some (some (i, p, ds), m)) : ∃ v, p = .num v := by
  have hm := List.mem_of_getElem? hk
  unfold suggestions at hm
  rcases List.mem_append.1 hm with hm | hm
  · split at hm
    · cases hm
    · rw [List.mem_singleton] at hm; cases hm
  · obtain ⟨q, hq, e⟩ := List.mem_filterMap.1 hm
    obtain ⟨o, j⟩ := q
    rw [List.mk_mem_zipIdx_iff_getElem?] at hq
    cases hb : o.best par s with
    | none => rw [hb] at e; cases e
    | some r =>
      rw [hb] at e
      simp only [Option.map_some, Option.some.injEq, Prod.mk.injEq] at e
      obtain ⟨⟨rfl, rfl, rfl⟩, -⟩ := e
      cases o with
      | off => cases hb
      | other q => exact absurd hq (h q)
      | gauss g =>
        simp only [AttObs.best, Option.map_eq_some_iff] at hb
        obtain ⟨r0, -, rfl⟩ := hb
        exact ⟨_, rfl⟩

omit ha in
theorem disable_rescale (i : Nat) (poor : List Nat) (obs : List (AttObs P)) :
    disable poor (obs.modify i (AttObs.rescale a b)) = (disable poor obs).modify i (AttObs.rescale a b) := by
  unfold disable
  apply List.ext_getElem?
  intro j
  rw [List.getElem?_map, List.getElem?_zipIdx, List.getElem?_modify, List.getElem?_modify, List.getElem?_map, List.getElem?_zipIdx]
  cases obs[j]? with
  | none => rfl
  | some o =>
    simp only [Option.map_some, zero_add]
    by_cases e : i = j
    · by_cases hp : j ∈ poor <;> simp [e, hp, AttObs.rescale]
    · by_cases hp : j ∈ poor <;> simp [e, hp]

theorem attempt_rescale (par : Par P) (hs : ScaleFree par.cum) (k kind : Kind) (nbt grace : ℚ) (n i : Nat) (hi : i < n) (r : Row)
    (l : Leaf (List (AttObs P))) (hl : Numeric i l.obs) :
    (attempt (par.cfg kind nbt grace) (par.ev k r) l).map (Test.rescale n i a b) (Leaf.rescale a b i) =
      attempt (par.cfg kind nbt grace) (par.ev k (r.rescale i a b)) (l.rescale a b i) := by
  have hnew : ∀ c s, Leaf.rescale a b i (newLeaf (par.cfg kind nbt grace) c s) = newLeaf (par.cfg kind nbt grace) c s := by
    intro c s; simp [Leaf.rescale, newLeaf, Par.cfg]
  unfold attempt
  have e : ((par.ev k (r.rescale i a b)).growth = true ∧ (l.rescale a b i).active = true ∧
      total (l.rescale a b i).stats - (l.rescale a b i).last ≥ (par.cfg kind nbt grace).grace) =
      ((par.ev k r).growth = true ∧ l.active = true ∧ total l.stats - l.last ≥ (par.cfg kind nbt grace).grace) := rfl
  simp only [e]
  by_cases hc : (par.ev k r).growth = true ∧ l.active = true ∧ total l.stats - l.last ≥ (par.cfg kind nbt grace).grace
  · rw [if_pos hc, if_pos hc]
    have hsg : suggestions par (l.rescale a b i).stats (l.rescale a b i).obs = (suggestions par l.stats l.obs).map (suggRescale a b i) :=
      suggestions_rescale a b ha par hs i l.stats l.obs hl
    have hms : ((suggestions par l.stats l.obs).map (suggRescale a b i)).map (fun s => (s.1.map fun t => t.1, s.2)) =
        (suggestions par l.stats l.obs).map fun s => (s.1.map fun t => t.1, s.2) := by
      rw [List.map_map]
      apply List.map_congr_left
      intro s _
      simp only [Function.comp_apply, suggRescale, Option.map_map]
      rfl
    have hst : (l.rescale a b i).stats = l.stats := rfl
    have c1 : (par.ev k r).choose l = chooseSplit par k l := rfl
    have c2 : (par.ev k (r.rescale i a b)).choose (l.rescale a b i) = chooseSplit par k (l.rescale a b i) := rfl
    rw [c1, c2]
    unfold chooseSplit
    simp only []
    rw [hsg, hms, hst]
    cases par.pick l.stats ((suggestions par l.stats l.obs).map fun s => (s.1.map fun t => t.1, s.2)) with
    | keep poor =>
      by_cases hm : k = .mc
      · simp only [T.map, Leaf.rescale, hm, if_true, disable_rescale]
      · simp only [T.map, Leaf.rescale, hm, if_false, id]
    | prune => simp only [T.map, hnew]
    | split k =>
      simp only [List.getElem?_map]
      cases hk : (suggestions par l.stats l.obs)[k]? with
      | none => simp only [Option.map_none, T.map, hnew]
      | some sg =>
        obtain ⟨t, m⟩ := sg
        cases t with
        | none => simp only [Option.map_some, suggRescale, Option.map_none, T.map, hnew]
        | some t =>
          obtain ⟨j, p, ds⟩ := t
          simp only [Option.map_some, suggRescale, T.map]
          rw [newKids_map _ _ _ _ hnew, test_rescale a b ha n i hi j p (by
            rintro rfl
            exact suggestion_num par j l.stats l.obs hl k p ds m hk)]
  · rw [if_neg hc, if_neg hc]
    rfl

theorem same_rescale (par : Par P) (hs : ScaleFree par.cum) (k kind : Kind) (hk : kind ≠ .nba) (nbt grace : ℚ) (n i : Nat) (hi : i < n)
    (hg : par.start[i]? = some (.gauss [])) (r : Row) (hr : r.x.length = n) :
    Same (Test.rescale n i a b) (Leaf.rescale a b i) (fun l => Numeric i l.obs) (par.cfg kind nbt grace) (par.cfg kind nbt grace)
      (par.ev k r) (par.ev k (r.rescale i a b)) where
  keeps := {
    learn := by
      intro l hl
      have hst : Numeric i par.start := by intro p hp; rw [hg] at hp; cases hp
      simp only [Leaf.learn]
      split
      · exact numeric_update par i hst l.obs hl _ _ _
      · exact hl
    keep := by
      intro l hl f hf
      have : chooseSplit par k l = .keep f := hf
      unfold chooseSplit at this
      simp only [] at this
      split at this
      · rw [Choice.keep.injEq] at this
        rw [← this]
        by_cases hm : k = .mc
        · simp only [hm, if_true]; exact numeric_disable i l.obs hl _
        · simp only [hm, if_false]; exact hl
      · cases this
      · split at this <;> cases this }
  memory := rfl
  branch := branch_rescale a b ha n i hi r.x hr
  two := by
    intro t ht m
    cases t with
    | num t => simp [Test.rescale]
    | nom t => simp [Test.rescale]
    | multi m => exact absurd rfl (ht m)
  multi := multi_rescale a b ha n i hi r.x hr
  learn := by
    intro l hl
    have hd : decide (kind = .nba) = false := by simpa using hk
    have hd' : decide ((par.cfg kind nbt grace).kind = .nba) = false := hd
    simp only [Leaf.learn, Leaf.rescale, hd', Bool.and_false, Bool.false_and, Bool.false_eq_true, if_false, Leaf.mk.injEq, true_and, and_true]
    refine ⟨rfl, ?_⟩
    by_cases h : l.active = true
    · simp only [h, if_true]
      exact (updateAll_rescale a b ha par i hg l.obs hl r.x r.y r.w).symm
    · simp only [h, if_false, Bool.false_eq_true]
  attempt := fun l hl => attempt_rescale a b ha par hs k kind nbt grace n i hi r l hl

end

/-! ### The counters of adaptive leaves do not matter for the splits -/

/-- The leaf of a tree with `leaf_prediction='mc'`. -/
def Leaf.plain (l : Leaf (List (AttObs P))) : Leaf (List (AttObs P)) := { l with mc := 0, nb := 0 }

theorem same_plain (par : Par P) (k kind : Kind) (nbt nbt' grace : ℚ) (r : Row) :
    Same id Leaf.plain (fun _ => True) (par.cfg kind nbt grace) (par.cfg .mc nbt' grace) (par.ev k r) (par.ev k r) where
  keeps := ⟨fun _ _ => trivial, fun _ _ _ _ => trivial⟩
  memory := rfl
  branch := fun _ => rfl
  two := fun t h m => h m
  multi := by
    intro m
    refine ⟨m, rfl, ?_⟩
    split
    · assumption
    · next v hv =>
      refine ⟨v, hv, ?_⟩
      split
      · assumption
      · next id m2 h => exact ⟨m2, h, rfl⟩
  learn := by
    intro l _
    simp [Leaf.learn, Leaf.plain, Par.cfg]
    rfl
  attempt := by
    intro l _
    have hnew : ∀ c s, Leaf.plain (newLeaf (par.cfg kind nbt grace) c s) = newLeaf (par.cfg .mc nbt' grace) c s := fun _ _ => rfl
    unfold attempt
    have e : ((par.ev k r).growth = true ∧ l.plain.active = true ∧
        total l.plain.stats - l.plain.last ≥ (par.cfg .mc nbt' grace).grace) =
        ((par.ev k r).growth = true ∧ l.active = true ∧ total l.stats - l.last ≥ (par.cfg kind nbt grace).grace) := rfl
    simp only [e]
    have hc : (par.ev k r).choose l.plain = (par.ev k r).choose l := rfl
    rw [hc]
    split
    · cases (par.ev k r).choose l with
      | keep f => rfl
      | prune => rfl
      | split t ds => simp only [T.map, newKids_map _ _ _ _ hnew, id]; rfl
    · rfl

theorem run_plain (par : Par P) (k kind : Kind) (nbt nbt' grace : ℚ) (rows : List Row) :
    run (par.cfg .mc nbt' grace) none (rows.map (par.ev k)) =
      (run (par.cfg kind nbt grace) none (rows.map (par.ev k))).map (Option.map (T.map id Leaf.plain)) := by
  refine run_map (cfg := par.cfg kind nbt grace) (cfg' := par.cfg .mc nbt' grace) (τ := id) (φ := Leaf.plain) (I := fun _ => True) ⟨fun _ _ => trivial, fun _ _ => rfl, fun _ => rfl, fun _ => rfl⟩ none (by simp) _ _ ?_
  rw [List.forall₂_map_left_iff, List.forall₂_map_right_iff]
  exact List.forall₂_same.2 fun r _ => same_plain par k kind nbt nbt' grace r

theorem run_rescale (a b : ℚ) (ha : 0 < a) (par : Par P) (hs : ScaleFree par.cum) (k kind : Kind) (hk : kind ≠ .nba) (nbt grace : ℚ)
    (n i : Nat) (hi : i < n) (hg : par.start[i]? = some (.gauss [])) (rows : List Row) (hr : ∀ r ∈ rows, r.x.length = n) :
    run (par.cfg kind nbt grace) none ((rows.map (Row.rescale i a b)).map (par.ev k)) =
      (run (par.cfg kind nbt grace) none (rows.map (par.ev k))).map (Option.map (T.map (Test.rescale n i a b) (Leaf.rescale a b i))) := by
  refine run_map (τ := Test.rescale n i a b) (φ := Leaf.rescale a b i) (I := fun l => Numeric i l.obs) ⟨?_, ?_, fun _ => rfl, fun _ => rfl⟩ none (by simp) _ _ ?_
  · intro c s p hp
    simp [newLeaf, Par.cfg] at hp
  · intro c s
    simp [Leaf.rescale, newLeaf, Par.cfg]
  · rw [List.map_map, List.forall₂_map_left_iff, List.forall₂_map_right_iff]
    exact List.forall₂_same.2 fun r hm => same_rescale a b ha par hs k kind hk nbt grace n i hi hg r (hr r hm)

mutual
theorem T.map_map {O O' O'' : Type} (τ τ' : Test → Test) (φ : Leaf O → Leaf O') (ψ : Leaf O' → Leaf O'') (r : T O) :
    (r.map τ φ).map τ' ψ = r.map (τ' ∘ τ) (ψ ∘ φ) := by
  match r with
  | .leaf l => rfl
  | .split t s kids => simp only [T.map, F.map_map τ τ' φ ψ kids, Function.comp_apply]
theorem F.map_map {O O' O'' : Type} (τ τ' : Test → Test) (φ : Leaf O → Leaf O') (ψ : Leaf O' → Leaf O'') (kids : F O) :
    (kids.map τ φ).map τ' ψ = kids.map (τ' ∘ τ) (ψ ∘ φ) := by
  match kids with
  | .nil => rfl
  | .cons j t rest => simp only [F.map, T.map_map τ τ' φ ψ t, F.map_map τ τ' φ ψ rest]
end

theorem collect_map {α β : Type} (f f' : α → Except PyErr β) (g : α → α) (l : List α) (h : ∀ x ∈ l, f (g x) = f' x) :
    collect f (l.map g) = collect f' l := by
  induction l with
  | nil => rfl
  | cons x l ih => rw [List.map_cons, collect, collect, h x (by simp), ih fun y hy => h y (by simp [hy])]

/-! ### C288 -/

/-- **C288** (part): give numeric attribute `i` of `n` in another unit (`x ↦ a x + b`, `a > 0`) in all training rows.  With
every kind of leaves, training ends with the same exception, or the tree has the same splits, with the thresholds of
attribute `i` in the new unit, and the same class weights in the same active and inactive leaves. -/
theorem C288_splits_partial (par : Par P) (hs : ScaleFree par.cum) (kind : Kind) (nbThreshold grace : ℚ) (n i : Nat) (hi : i < n)
    (hg : par.start[i]? = some (.gauss [])) (a b : ℚ) (ha : 0 < a) (rows : List Row) (hr : ∀ r ∈ rows, r.x.length = n) :
    (run (par.cfg kind nbThreshold grace) none ((rows.map (Row.rescale i a b)).map (par.ev kind))).map (Option.map (T.map id Leaf.classes)) =
      (run (par.cfg kind nbThreshold grace) none (rows.map (par.ev kind))).map (Option.map (T.map (Test.rescale n i a b) Leaf.classes)) := by
  have h1 := run_rescale a b ha par hs kind .mc (by simp) nbThreshold grace n i hi hg rows hr
  rw [run_plain par kind kind nbThreshold, run_plain par kind kind nbThreshold] at h1
  generalize run (par.cfg kind nbThreshold grace) none ((rows.map (Row.rescale i a b)).map (par.ev kind)) = R at h1 ⊢
  generalize run (par.cfg kind nbThreshold grace) none (rows.map (par.ev kind)) = S at h1 ⊢
  cases R with
  | error e =>
    cases S with
    | error e' => simpa [Except.map] using h1
    | ok s => simp [Except.map] at h1
  | ok r =>
    cases S with
    | error e' => simp [Except.map] at h1
    | ok s =>
      simp only [Except.map, Except.ok.injEq] at h1 ⊢
      cases r with
      | none =>
        cases s with
        | none => rfl
        | some s => simp at h1
      | some r =>
        cases s with
        | none => simp at h1
        | some s =>
          simp only [Option.map_some, Option.some.injEq] at h1 ⊢
          have h2 := congrArg (T.map id Leaf.classes) h1
          rw [T.map_map, T.map_map, T.map_map] at h2
          exact h2

/-- **C288** (part): with majority class leaves, `predict_proba` and `predict` answer every row, its attribute `i` in the
new unit, as before. -/
theorem C288_majority_partial (par : Par P) (hs : ScaleFree par.cum) (nbThreshold grace : ℚ) (n i : Nat) (hi : i < n)
    (hg : par.start[i]? = some (.gauss [])) (a b : ℚ) (ha : 0 < a) (rows : List Row) (hr : ∀ r ∈ rows, r.x.length = n)
    (classes : Option (List Int)) (xs : List (List ℚ)) (hx : ∀ x ∈ xs, x.length = n) :
    let cfg := par.cfg .mc nbThreshold grace
    (run cfg none ((rows.map (Row.rescale i a b)).map (par.ev .mc))).map
        (fun root => (proba cfg root classes (xs.map (rescale i a b)), predict cfg root classes (xs.map (rescale i a b)))) =
      (run cfg none (rows.map (par.ev .mc))).map fun root => (proba cfg root classes xs, predict cfg root classes xs) := by
  intro cfg
  have h1 := run_rescale a b ha par hs .mc .mc (by simp) nbThreshold grace n i hi hg rows hr
  have e0 : par.cfg .mc nbThreshold grace = cfg := rfl
  rw [e0] at h1
  rw [h1]
  cases run cfg none (rows.map (par.ev .mc)) with
  | error e => rfl
  | ok root =>
    simp only [Except.map, Except.ok.injEq]
    have hv : ∀ x ∈ xs, votesAt cfg (root.map (T.map (Test.rescale n i a b) (Leaf.rescale a b i))) (rescale i a b x) = votesAt cfg root x := by
      intro x hm
      refine votesAt_map x _ (branch_rescale a b ha n i hi x (hx x hm)) ?_ root
      intro l
      simp [Leaf.votes, Leaf.rescale, cfg, Par.cfg]
    have hp : proba cfg (root.map (T.map (Test.rescale n i a b) (Leaf.rescale a b i))) classes (xs.map (rescale i a b)) =
        proba cfg root classes xs := by
      have hc : ∀ f f' : List ℚ → Except PyErr (List ℚ), (∀ x ∈ xs, f (rescale i a b x) = f' x) →
          collect f (xs.map (rescale i a b)) = collect f' xs := fun f f' h => collect_map f f' _ xs h
      unfold proba
      congr 1
      apply hc
      intro x hm
      rw [hv x hm]
    unfold predict
    rw [hp]

/-- Class 0 has shown the value 5 twice, class 1 the values 4 and 6; no split is attempted. -/
def fives : List Row := [⟨[5], 0, 1, false, []⟩, ⟨[5], 0, 1, false, []⟩, ⟨[4], 1, 1, false, []⟩, ⟨[6], 1, 1, false, []⟩]

theorem run_leaf (par : Par P) (k : Kind) (cfg : Cfg (List (AttObs P))) (rows : List Row) (h : ∀ r ∈ rows, r.growth = false ∧ r.memory = [])
    (l : Leaf (List (AttObs P))) :
    run cfg (some (.leaf l)) (rows.map (par.ev k)) = .ok (some (.leaf (rows.foldl (fun l r => l.learn cfg r.x r.y r.w) l))) := by
  induction rows generalizing l with
  | nil => rfl
  | cons r rows ih =>
    obtain ⟨h1, h2⟩ := h r (by simp)
    rw [List.map_cons, run]
    have : step cfg (some (.leaf l)) (par.ev k r) = .ok (.leaf (l.learn cfg r.x r.y r.w)) := by
      simp [step, T.filter, T.get, T.modify, manage, Par.ev, h2, attempt, h1]
    rw [this]
    exact ih (fun r hr => h r (by simp [hr])) _

/-- **C288, violated** for `leaf_prediction` `'nb'` and `'nba'` (the default): in a leaf where a class has shown one value
only the unit decides which class is predicted, as in C287. -/
theorem C288_naive_bayes_violated (par : Par P) (hst : par.start = [.gauss []]) (hd : Bayes.Homogeneous par.dens)
    (hpos : 0 < par.dens 2 0) (kind : Kind) (hk : kind ≠ .mc) (grace : ℚ) (a : ℚ) (ha : 0 < a) :
    ∃ root, run (par.cfg kind 0 grace) none ((fives.map (Row.rescale 0 a 0)).map (par.ev kind)) = .ok root ∧
      predict (par.cfg kind 0 grace) root none [rescale 0 a 0 [5]] = .ok [if a < par.dens 2 0 then 1 else 0] := by
  have hrun : run (par.cfg kind 0 grace) none ((fives.map (Row.rescale 0 a 0)).map (par.ev kind)) =
      run (par.cfg kind 0 grace) (some (.leaf (newLeaf (par.cfg kind 0 grace) true []))) ((fives.map (Row.rescale 0 a 0)).map (par.ev kind)) := rfl
  rw [hrun, run_leaf par kind _ _ (by simp [fives, Row.rescale])]
  refine ⟨_, rfl, ?_⟩
  set L := (fives.map (Row.rescale 0 a 0)).foldl (fun l r => l.learn (par.cfg kind 0 grace) r.x r.y r.w)
    (newLeaf (par.cfg kind 0 grace) true []) with hL
  have hobs : L.obs = [.gauss [(0, ⟨⟨2, a * 5, 0⟩, a * 5, a * 5⟩), (1, ⟨⟨2, a * 5, a ^ 2 * 2⟩, a * 4, a * 6⟩)]] := by
    have h46 : a * 4 < a * 6 := by linarith
    have h64 : ¬ a * 6 < a * 4 := by linarith
    simp [hL, fives, Row.rescale, rescale, Leaf.learn, newLeaf, Par.cfg, updateAll, hst, AttObs.update, gUpdate, ClsRec.update, Est.add, h46, h64]
    refine ⟨by norm_num, by norm_num; constructor <;> ring⟩
  have hstats : L.stats = [(0, 2), (1, 2)] := by
    simp [hL, fives, Row.rescale, rescale, Leaf.learn, newLeaf, Par.cfg, bump, SDict.alter]
    norm_num
  have hact : L.active = true := by
    simp [hL, fives, Row.rescale, rescale, Leaf.learn, newLeaf, Par.cfg]
  have hcnt : kind = .nba → ¬ L.mc > L.nb := by
    rintro rfl
    have e1 : ¬ a * 4 = a * 5 := by intro h; linarith
    have e2 : ¬ a * 6 = a * 5 := by intro h; linarith
    have e3 : ¬ a * 6 = a * 4 := by intro h; linarith
    simp [hL, fives, Row.rescale, rescale, Leaf.learn, newLeaf, Par.cfg, bump, SDict.alter, updateAll, hst, AttObs.update, gUpdate,
      ClsRec.update, Est.add, mcRight, nbRight, maxKey, naiveBayes, total, AttObs.prob, Bayes.gProb, density, Est.variance, e1, e2, List.lookup]
    norm_num [e1, e2, e3, List.lookup, ha.ne']
  have hvotes : L.votes (par.cfg kind 0 grace) (rescale 0 a 0 [5]) = [(0, 1 / 2), (1, par.dens 2 0 / a / 2)] := by
    have hx : rescale 0 a 0 [5] = [a * 5] := by simp [rescale]
    have hnb : naiveBayes par L.stats L.obs [a * 5] = [(0, 1 / 2), (1, par.dens 2 0 / a / 2)] := by
      rw [hstats, hobs]
      have hv : (⟨2, a * 5, a ^ 2 * 2⟩ : Est).variance = a ^ 2 * 2 := by simp [Est.variance]; norm_num
      have hv0 : (⟨2, a * 5, 0⟩ : Est).variance = 0 := by simp [Est.variance]
      have hd0 : par.dens (a ^ 2 * 2) 0 = par.dens 2 0 / a := by
        have := hd a 2 0 ha
        rwa [mul_zero] at this
      have hp : 0 < a ^ 2 * 2 := by positivity
      simp [naiveBayes, total, AttObs.prob, Bayes.gProb, density, hv, hv0, hd0, hp, List.lookup]
      norm_num
      ring
    rw [hx, Leaf.votes, hact, if_pos rfl]
    cases kind with
    | mc => exact absurd rfl hk
    | nb =>
      have h2 : total L.stats ≥ (0 : ℚ) := by rw [hstats]; simp [total]
      simp only [Par.cfg, h2, if_true]
      exact hnb
    | nba =>
      have := hcnt rfl
      simp only [Par.cfg, this, if_false]
      exact hnb
  have hvat : votesAt (par.cfg kind 0 grace) (some (.leaf L)) (rescale 0 a 0 [5]) = .ok [(0, 1 / 2), (1, par.dens 2 0 / a / 2)] := by
    simp [votesAt, T.filter, T.get, hvotes]
  have hq : 0 < par.dens 2 0 / a / 2 := by positivity
  have hsum : (1 : ℚ) / 2 + par.dens 2 0 / a / 2 ≠ 0 := by positivity
  generalize hqq : par.dens 2 0 / a / 2 = q at *
  have hiff : a < par.dens 2 0 ↔ 1 / 2 < q := by
    rw [← hqq, div_lt_div_iff_of_pos_right (by norm_num : (0 : ℚ) < 2), lt_div_iff₀ ha, one_mul]
  have hrow : probaRow none [(0, 1 / 2), (1, q)] = .ok [1 / 2 / (1 / 2 + q), q / (1 / 2 + q)] := by
    have : ([((0 : Int), (1 / 2 : ℚ)), (1, q)].map Prod.snd).sum = 1 / 2 + q := by simp
    simp only [probaRow, this, if_pos hsum]
    rfl
  have hp : 0 < 1 / 2 + q := by positivity
  have hlt : 2⁻¹ / (2⁻¹ + q) < q / (2⁻¹ + q) ↔ 2⁻¹ < q := div_lt_div_iff_of_pos_right (by simpa using hp)
  simp only [predict, proba, collect, hvat, hrow, pad, List.map_cons, List.map_nil, Lazy.argmax]
  simp only [List.length_cons, List.length_nil, List.foldl_cons, List.foldl_nil]
  simp [hiff, hlt]
  split <;> rfl

/-! ### Examples -/

/-- A distribution function by variance and distance that does not depend on the unit. -/
def cum0 (v d : ℚ) : ℚ := 1 / 2 + d * |d| / (2 * (v + d ^ 2))

theorem cum0_scaleFree : ScaleFree cum0 := by
  intro a v d ha
  unfold cum0
  rw [abs_mul, abs_of_pos ha]
  have e1 : a * d * (a * |d|) = a ^ 2 * (d * |d|) := by ring
  have e2 : 2 * (a ^ 2 * v + (a * d) ^ 2) = a ^ 2 * (2 * (v + d ^ 2)) := by ring
  rw [e1, e2, mul_div_mul_left _ _ (by positivity)]

/-- The purity of the branches. -/
def purity (_ : Stats) (ds : List Stats) : WithBot ℚ :=
  ((ds.map fun d => (d.map fun p => p.2 ^ 2).sum).sum : ℚ)

/-- Take the last suggestion of the largest merit. -/
def takeBest (_ : Stats) (l : List (Option Nat × WithBot ℚ)) : Pick :=
  .split (l.zipIdx.foldl (fun (b : WithBot ℚ × Nat) q => if b.1 ≤ q.1.2 then (q.1.2, q.2) else b) (⊥, 0)).2

/-- One numeric attribute. -/
def par0 : Par Empty := ⟨[.gauss []], 4, Bayes.dens0, cum0, purity, fun p _ _ _ => p, fun _ _ => none, fun _ _ _ => 0, true, takeBest⟩

/-- Two classes, one below the other. -/
def rows0 : List Row := [⟨[0], 0, 1, true, []⟩, ⟨[1], 0, 1, true, []⟩, ⟨[3], 1, 1, true, []⟩, ⟨[5], 1, 1, true, []⟩, ⟨[2], 0, 1, true, []⟩]

/-- The hypotheses hold, the tree splits at the value 1 (in another unit at 7), and the answers are those of C288. -/
example : (0 < 1) ∧ par0.start[0]? = some (.gauss []) ∧ (∀ r ∈ rows0, r.x.length = 1) ∧
    (match run (par0.cfg .mc 0 4) none (rows0.map (par0.ev .mc)) with
      | .ok (some (.split (.num t) _ _)) => some (t.att, t.value)
      | _ => none) = some (0, 1) ∧
    (match run (par0.cfg .mc 0 4) none ((rows0.map (Row.rescale 0 10 (-3))).map (par0.ev .mc)) with
      | .ok (some (.split (.num t) _ _)) => some (t.att, t.value)
      | _ => none) = some (0, 7) ∧
    ((run (par0.cfg .mc 0 4) none (rows0.map (par0.ev .mc))).toOption.map fun root =>
      (predict (par0.cfg .mc 0 4) root none [[1], [4]]).toOption) = some (some [0, 1]) := by
  refine ⟨by decide, rfl, by decide, ?_, ?_, ?_⟩ <;> decide +kernel

/-- The hypotheses of the violation hold. -/
example : par0.start = [.gauss []] ∧ Bayes.Homogeneous par0.dens ∧ 0 < par0.dens 2 0 :=
  ⟨rfl, Bayes.dens0_homogeneous, by decide +kernel⟩

end Verif.Trees.HL
