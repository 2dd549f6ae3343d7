import Verif.Trees.Units
import Verif.Trees.Nominal
import Mathlib.Data.List.Sort
import Mathlib.Data.Nat.Sqrt
import Mathlib.Analysis.SpecialFunctions.Log.Basic

/-!
C289: does `leaf_prediction` change the tree that a `HoeffdingTreeClassifier` grows?  The tree of `Trees/Units.lean` with
the split decision of hoeffding_tree.py 576-611.

Simplifications: those of `Trees/Units.lean`; the Hoeffding bound is an arbitrary function of the class statistics; the
exception of `remove_poor_atts=True` with pre-pruning (C67) is not shown.
-/

namespace Verif.Trees.HL

open Verif.Trees

/-! ### Model -/

/-- `observed_class_distribution_is_pure`, htc_nodes.py 45-61. -/
def isPure (s : Stats) : Bool := decide ((s.filter fun p => p.2 ≠ 0).length < 2)

/-- `m1 - m2 > bound`, where a merit may be `-inf`. -/
def exceeds : WithBot ℚ → WithBot ℚ → ℚ → Bool
  | some m1, some m2, bound => decide (m1 - m2 > bound)
  | some _, none, _ => true
  | none, _, _ => false

/-- `_attempt_to_split`, hoeffding_tree.py 576-615: candidates (attribute and merit, numbered) in order of merit; the
decision, and the attributes that `remove_poor_atts` disables. -/
def decideSplit (removePoor : Bool) (bound : Stats → ℚ) (tie : ℚ) (s : Stats) (l : List (Option Nat × WithBot ℚ)) : Pick :=
  let order := l.zipIdx.insertionSort fun p q => p.1.2 ≤ q.1.2
  let take (p : (Option Nat × WithBot ℚ) × Nat) : Pick := if p.1.1 = none then .prune else .split p.2
  if isPure s then .keep []
  else
    match order.reverse with
    | [] => .keep []
    | [p] => take p
    | p :: q :: _ =>
      if exceeds p.1.2 q.1.2 (bound s) ∨ bound s < tie then take p
      else .keep (if removePoor then (order.filter fun c => exceeds p.1.2 c.1.2 (bound s)).filterMap fun c => c.1.1 else [])

/-! ### Specification -/

/-- The parameters with the split decision of the code. -/
def Par.deciding {P : Type} (par : Par P) (removePoor : Bool) (bound : Stats → ℚ) (tie : ℚ) : Par P :=
  { par with pick := decideSplit removePoor bound tie }

/-- Training: the splits with their class statistics, and class weights and activity of the leaves, or the exception. -/
def Par.grow {P : Type} (par : Par P) (kind : Kind) (nbThreshold grace : ℚ) (rows : List Row) : Except PyErr (Option (T Unit)) :=
  (run (par.cfg kind nbThreshold grace) none (rows.map (par.ev kind))).map (Option.map (T.map id Leaf.classes))

/-! ### Proofs -/

theorem decideSplit_poor (bound : Stats → ℚ) (tie : ℚ) (s : Stats) (l : List (Option Nat × WithBot ℚ)) (poor : List Nat)
    (h : decideSplit false bound tie s l = .keep poor) : poor = [] := by
  have htake : ∀ p : (Option Nat × WithBot ℚ) × Nat, (if p.1.1 = none then Pick.prune else .split p.2) ≠ .keep poor := by
    intro p
    split <;> simp
  unfold decideSplit at h
  simp only [Bool.false_eq_true, if_false] at h
  split at h
  · cases h; rfl
  · split at h
    · cases h; rfl
    · exact absurd h (htake _)
    · split at h
      · exact absurd h (htake _)
      · cases h; rfl

theorem disable_nil {P : Type} (obs : List (AttObs P)) : disable [] obs = obs := by
  simp [disable, List.zipIdx_map_fst]

theorem chooseSplit_kind {P : Type} (par : Par P) (bound : Stats → ℚ) (tie : ℚ) (k k' : Kind) :
    chooseSplit (par.deciding false bound tie) k = chooseSplit (par.deciding false bound tie) k' := by
  funext l
  unfold chooseSplit
  simp only []
  split
  · next poor hp =>
    have := decideSplit_poor bound tie _ _ _ hp
    subst this
    congr 1
    funext obs
    split <;> split <;> simp [disable_nil]
  · rfl
  · rfl

theorem grow_choose {P : Type} (par : Par P) (k k' : Kind) (nbt nbt' grace : ℚ) (h : chooseSplit par k = chooseSplit par k') (rows : List Row) :
    par.grow k nbt grace rows = par.grow k' nbt' grace rows := by
  have hev : par.ev k = par.ev k' := by funext r; unfold Par.ev; rw [h]
  have h1 := run_plain par k' k nbt 0 grace rows
  have h2 := run_plain par k' k' nbt' 0 grace rows
  unfold Par.grow
  rw [hev]
  rw [h1] at h2
  generalize run (par.cfg k nbt grace) none (rows.map (par.ev k')) = R at h2 ⊢
  generalize run (par.cfg k' nbt' grace) none (rows.map (par.ev k')) = S at h2 ⊢
  have e : ∀ R : Except PyErr (Option (T (List (AttObs P)))), R.map (Option.map (T.map id Leaf.classes)) =
      (R.map (Option.map (T.map id Leaf.plain))).map (Option.map (T.map id Leaf.classes)) := by
    intro R
    cases R with
    | error e => rfl
    | ok r =>
      cases r with
      | none => rfl
      | some r =>
        simp only [Except.map, Option.map_some, T.map_map]
        rfl
  rw [e R, e S, h2]

/-- **C289** (part): without `remove_poor_atts`, or between the two kinds of naive Bayes leaves, trees that differ only in
`leaf_prediction` and `nb_threshold` grow alike. -/
theorem C289_same_splits_partial {P : Type} (par : Par P) (removePoor : Bool) (bound : Stats → ℚ) (tie : ℚ) (k k' : Kind)
    (h : removePoor = false ∨ (k ≠ .mc ∧ k' ≠ .mc)) (nbThreshold nbThreshold' grace : ℚ) (rows : List Row) :
    (par.deciding removePoor bound tie).grow k nbThreshold grace rows =
      (par.deciding removePoor bound tie).grow k' nbThreshold' grace rows := by
  apply grow_choose
  rcases h with rfl | ⟨h, h'⟩
  · exact chooseSplit_kind par bound tie k k'
  · funext l
    unfold chooseSplit
    simp only [if_neg h, if_neg h']

/-! ### Violation -/

/-- `get_merit_of_split`, gini_split_criterion.py 7-17, for branches of positive total weight. -/
def gini (ds : List Stats) : ℚ :=
  1 - (ds.map fun d => total d / (ds.map total).sum *
    (if total d ≠ 0 then d.foldl (fun g p => g - p.2 / total d * (p.2 / total d)) 1 else 1)).sum

/-- Class labels as in the statistics. -/
def toStats (d : SDict Nat ℚ) : Stats := d.map fun p => ((p.1 : Int), p.2)

/-- The branch distributions of a suggestion. -/
def nomDists : NomSugg → List Stats
  | .multiway _ ds => ds.map toStats
  | .binary _ ds => [toStats ds.1, toStats ds.2]

/-- The test of a suggestion. -/
def nomTest : NomSugg → Proposal
  | .multiway vs _ => .multi vs
  | .binary v _ => .nom v

/-- `n` nominal attributes, `split_criterion='gini'`, `no_preprune=True`, two-way and multiway tests. -/
def nominalPar (n : Nat) : Par NomObs where
  start := List.replicate n (.other [])
  bins := 10
  dens := fun _ _ => 0
  cum := fun _ _ => 0
  merit := fun _ ds => (gini ds : ℚ)
  update := fun d v y w => nomUpdate d (some v) y.toNat w
  propose := fun d _ => (nomBest (fun s => gini (nomDists s)) d false).map fun s => (nomTest s, nomDists s, ((gini (nomDists s) : ℚ) : WithBot ℚ))
  prob := fun d v c => nomProb d v c.toNat
  noPreprune := true
  pick := fun _ _ => .keep []

/-- The Hoeffding bound for range 1 and `split_confidence = exp(-1/8)`, where the weight is a square number. -/
def bound8 (s : Stats) : ℚ := 1 / (4 * (Nat.sqrt (total s).num.toNat : ℚ))

theorem bound8_exact (m : Nat) (hm : 0 < m) :
    Real.sqrt (1 * 1 * Real.log (1 / Real.exp (-(1 / 8))) / (2 * (m ^ 2 : ℝ))) = 1 / (4 * (m : ℝ)) := by
  have h1 : Real.log (1 / Real.exp (-(1 / 8))) = 1 / 8 := by
    rw [one_div, ← Real.exp_neg, Real.log_exp]; norm_num
  have hp : (0 : ℝ) < m := by exact_mod_cast hm
  rw [h1, show (1 * 1 * (1 / 8) / (2 * (m ^ 2 : ℝ))) = (1 / (4 * (m : ℝ))) ^ 2 by field_simp; norm_num]
  exact Real.sqrt_sq (by positivity)

/-- Three attributes: the first two tell the class of the first four rows, the third tells that of the last two. -/
def sixRows : List Row :=
  [⟨[0, 0, 0], 0, 4, true, []⟩, ⟨[0, 0, 1], 0, 4, true, []⟩, ⟨[1, 1, 0], 1, 4, true, []⟩, ⟨[1, 1, 1], 1, 4, true, []⟩,
    ⟨[1, 1, 0], 0, 10, true, []⟩, ⟨[0, 0, 1], 1, 38, true, []⟩]

/-- The attribute of the test at the root; `none`: the root is a leaf. -/
def rootAtt : Except PyErr (Option (T Unit)) → Option Int
  | .ok (some (.split (.num t) _ _)) => some t.att
  | .ok (some (.split (.nom t) _ _)) => some t.att
  | .ok (some (.split (.multi t) _ _)) => some t.att
  | _ => none

/-- **C289, violated** with `remove_poor_atts=True`: majority class leaves drop poor attributes, naive Bayes leaves
silently do not; one tree splits, the other does not. -/
theorem C289_remove_poor_violated (nbThreshold : ℚ) (kind : Kind) (hk : kind ≠ .mc) :
    let par := (nominalPar 3).deciding true bound8 (1 / 100)
    rootAtt (par.grow .mc nbThreshold 16 sixRows) = none ∧ rootAtt (par.grow kind nbThreshold 16 sixRows) = some 2 := by
  intro par
  have h : ∀ k nbt, par.grow k nbt 16 sixRows = par.grow k 0 16 sixRows := fun k nbt => grow_choose par k k nbt 0 16 rfl _
  constructor
  · rw [h]
    decide +kernel
  · have : par.grow kind 0 16 sixRows = par.grow .nb 0 16 sixRows := by
      apply grow_choose
      funext l
      unfold chooseSplit
      simp only [if_neg hk, reduceCtorEq, if_false]
    rw [h, this]
    decide +kernel

/-- Without `remove_poor_atts` both split by the third attribute; with it the naive Bayes kinds still agree. -/
example : let par := (nominalPar 3).deciding false bound8 (1 / 100)
    let par' := (nominalPar 3).deciding true bound8 (1 / 100)
    rootAtt (par.grow .mc 0 16 sixRows) = some 2 ∧ rootAtt (par.grow .nba 7 16 sixRows) = some 2 ∧
      rootAtt (par'.grow .nb 0 16 sixRows) = some 2 ∧ rootAtt (par'.grow .nba 7 16 sixRows) = some 2 := by
  decide +kernel

end Verif.Trees.HL
