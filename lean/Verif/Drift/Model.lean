import Verif.Common

/-!
Models of the simple drift detectors in `src/skmultiflow/drift_detection/`:
DDM, EDDM, Page-Hinkley, KSWIN, HDDM_A and HDDM_W.

Common conventions.  Numbers are rationals.  `float("inf")` is `none`.  Square
roots, logarithms, random draws and the Kolmogorov-Smirnov test are parameters.
The inherited flags `in_concept_change` and `in_warning_zone`
(`base_drift_detector.py:28-64`) are the fields `change` and `warning`; the
`None` values set by `BaseDriftDetector.__init__` are overwritten by `reset`
before any call returns, so they are not represented.
-/

namespace Verif.Drift

/-! ### DDM -/

/-- Parameters of `DDM.__init__`, `ddm.py:80-91`, plus the square root.  The
numbers are rationals unless stated otherwise; `DDMErrors.lean` takes reals. -/
structure DDMPar (F : Type := ℚ) where
  minInstances : Nat
  warningLevel : F
  outControlLevel : F
  sqrt : F → F

/-- `DDM` state, `ddm.py:93-105`.  The three minima are all infinite (`none`)
after a reset and are always assigned together (139-142). -/
structure DDM (F : Type := ℚ) where
  sampleCount : Nat
  missProb : F
  missStd : F
  /-- `(miss_prob_min, miss_sd_min, miss_prob_sd_min)` -/
  mins : Option (F × F × F)
  change : Bool
  warning : Bool
  estimation : F

namespace DDM

variable {F : Type} [Add F] [Sub F] [Mul F] [Div F] [NatCast F] [OfNat F 0] [OfNat F 1]
  [LE F] [LT F] [DecidableLE F] [DecidableLT F]

/-- `reset`, lines 93-105. -/
def init : DDM F := ⟨1, 1, 0, none, false, false, 0⟩

/-- Lines 139-142: update of the minima; `x <= inf` always holds. -/
def updMins (p s : F) : Option (F × F × F) → F × F × F
  | none => (p, s, p + s)
  | some (pm, sm, psm) => if p + s ≤ psm then (p, s, p + s) else (pm, sm, psm)

/-- `add_element`, lines 107-153. -/
def addElement (c : DDMPar F) (d : DDM F) (x : F) : DDM F :=
  let d := if d.change then init else d
  let p := d.missProb + (x - d.missProb) / d.sampleCount
  let s := c.sqrt (p * (1 - p) / d.sampleCount)
  let n := d.sampleCount + 1
  if n < c.minInstances then
    ⟨n, p, s, d.mins, false, false, p⟩
  else
    let m := updMins p s d.mins
    if p + s > m.1 + c.outControlLevel * m.2.1 then
      ⟨n, p, s, some m, true, false, p⟩
    else if p + s > m.1 + c.warningLevel * m.2.1 then
      ⟨n, p, s, some m, false, true, p⟩
    else
      ⟨n, p, s, some m, false, false, p⟩

/-- State after a stream. -/
def run (c : DDMPar F) (xs : List F) : DDM F := xs.foldl (addElement c) init

end DDM

/-! ### EDDM -/

/-- `EDDM` state, `eddm.py:81-95` (`m_last_level` is never used). -/
structure EDDM where
  n : Nat
  numErrors : Nat
  d : Nat
  lastd : Nat
  mean : ℚ
  stdTemp : ℚ
  m2sMax : ℚ
  change : Bool
  warning : Bool
  estimation : ℚ

namespace EDDM

/-- `reset`, lines 81-95. -/
def init : EDDM := ⟨1, 0, 0, 0, 0, 0, 0, false, false, 0⟩

/-- `add_element`, lines 97-155.  The input is the truth value of
`prediction == 1.0`.  The constants 0.9, 0.95 and 30 are lines 64-66 and 71. -/
def addElement (sqrt : ℚ → ℚ) (e : EDDM) (err : Bool) : EDDM :=
  let e := if e.change then init else e
  let e := { e with change := false, n := e.n + 1 }
  if err then
    let k : Nat := e.numErrors + 1
    let d : Nat := e.n - 1
    let dist : ℚ := (d : ℚ) - (e.d : ℚ)
    let mean := e.mean + (dist - e.mean) / k
    let stdTemp := e.stdTemp + (dist - mean) * (dist - e.mean)
    let std := sqrt (stdTemp / k)
    let m2s := mean + 2 * std
    let e := { e with warning := false, numErrors := k, lastd := e.d, d := d, mean := mean,
                      estimation := mean, stdTemp := stdTemp }
    if e.n < 30 then e
    else if m2s > e.m2sMax then { e with m2sMax := m2s }
    else
      let p := m2s / e.m2sMax
      if k > 30 ∧ p < 9 / 10 then { e with change := true }
      else if k > 30 ∧ p < 95 / 100 then { e with warning := true }
      else { e with warning := false }
  else e

def run (sqrt : ℚ → ℚ) (xs : List Bool) : EDDM := xs.foldl (addElement sqrt) init

end EDDM

/-! ### Page-Hinkley -/

/-- Parameters, `page_hinkley.py:53-62`. -/
structure PHPar where
  minInstances : Nat
  delta : ℚ
  threshold : ℚ
  alpha : ℚ

/-- State, lines 64-73. -/
structure PH where
  sampleCount : Nat
  mean : ℚ
  sum : ℚ
  change : Bool
  warning : Bool
  estimation : ℚ

namespace PH

/-- `reset`, lines 64-73. -/
def init : PH := ⟨1, 0, 0, false, false, 0⟩

/-- `add_element`, lines 75-109. -/
def addElement (c : PHPar) (s : PH) (x : ℚ) : PH :=
  let s := if s.change then init else s
  let mean := s.mean + (x - s.mean) / s.sampleCount
  let sum := max 0 (c.alpha * s.sum + (x - mean - c.delta))
  let n := s.sampleCount + 1
  if n < c.minInstances then ⟨n, mean, sum, false, false, mean⟩
  else if sum > c.threshold then ⟨n, mean, sum, true, false, mean⟩
  else ⟨n, mean, sum, false, false, mean⟩

def run (c : PHPar) (xs : List ℚ) : PH := xs.foldl (addElement c) init

end PH

/-! ### KSWIN -/

/-- Parameters of `KSWIN`, `kswin.py:77-97`, and the two external calls:
`choice` is `np.random.choice` (on a non-empty pool; it may depend on how many
elements were added so far), `reject` is the outcome of
`p_value <= alpha and st > 0.1` for two non-empty samples. -/
structure KSPar where
  windowSize : Nat
  statSize : Nat
  choice : Nat → List ℚ → List ℚ
  reject : List ℚ → List ℚ → Bool

/-- State, lines 77-97. -/
structure KS where
  window : List ℚ
  change : Bool
  n : Nat

namespace KS

/-- `__init__`, lines 77-97: `ValueError` when `window_size < stat_size`. -/
def init (c : KSPar) : Except PyErr KS :=
  if c.windowSize < c.statSize then .error .valueError else .ok ⟨[], false, 0⟩

/-- `window[:-k]` -/
def dropLastK (k : Nat) (l : List ℚ) : List ℚ := if k = 0 then [] else l.take (l.length - k)

/-- `window[-k:]` -/
def takeLastK (k : Nat) (l : List ℚ) : List ℚ := if k = 0 then l else lastN k l

/-- `add_element`, lines 99-128.  `np.delete` raises `IndexError` on an empty
window; `np.random.choice` raises `ValueError` when asked for a positive number
of samples from an empty pool; `ks_2samp` raises `ValueError` on an empty
sample (the case `stat_size = 0`). -/
def addElement (c : KSPar) (s : KS) (x : ℚ) : Except PyErr KS :=
  if s.window.length ≥ c.windowSize then
    match s.window with
    | [] => .error .indexError
    | _ :: w =>
      let pool := dropLastK c.statSize w
      if pool = [] ∧ c.statSize ≠ 0 then .error .valueError
      else if c.statSize = 0 then .error .valueError
      else
        let rnd := c.choice (s.n + 1) pool
        if c.reject rnd (takeLastK c.statSize w) then
          .ok ⟨takeLastK c.statSize w ++ [x], true, s.n + 1⟩
        else .ok ⟨w ++ [x], false, s.n + 1⟩
  else .ok ⟨s.window ++ [x], false, s.n + 1⟩

/-- State after construction and a stream. -/
def run (c : KSPar) (xs : List ℚ) : Except PyErr KS := init c >>= fun s => xs.foldlM (addElement c) s

end KS

/-! ### HDDM_A -/

/-- Parameters, `hddm_a.py:63-77`: the logarithms `log(1/drift_confidence)`,
`log(2/drift_confidence)`, `log(2/warning_confidence)` and the square root are
given directly.  The numbers are rationals unless stated otherwise; `HDDMRise.lean`
takes reals. -/
structure HAPar (F : Type := ℚ) where
  logD : F
  log2D : F
  log2W : F
  twoSide : Bool
  sqrt : F → F

/-- State, lines 63-77. -/
structure HA (F : Type := ℚ) where
  nMin : Nat
  cMin : F
  totalN : Nat
  totalC : F
  nMax : Nat
  cMax : F
  nEst : Nat
  cEst : F
  change : Bool
  warning : Bool
  estimation : F
  delay : Nat

/-- Python float division. -/
def pyDiv {F : Type} [Div F] [OfNat F 0] [DecidableEq F] (a b : F) : Except PyErr F :=
  if b = 0 then .error .zeroDivision else .ok (a / b)

/-- `math.sqrt`: `ValueError` on negative arguments. -/
def pySqrt {F : Type} [OfNat F 0] [LT F] [DecidableLT F] (sqrt : F → F) (a : F) : Except PyErr F :=
  if a < 0 then .error .valueError else .ok (sqrt a)

namespace HA

variable {F : Type} [Add F] [Sub F] [Mul F] [Div F] [NatCast F] [OfNat F 0] [OfNat F 1] [OfNat F 2]
  [LE F] [LT F] [DecidableLE F] [DecidableLT F] [DecidableEq F]

/-- `__init__`, lines 63-77, and `reset`, 162-176. -/
def init : HA F := ⟨0, 0, 0, 0, 0, 0, 0, 0, false, false, 0, 0⟩

/-- `_mean_incr`, lines 146-152. -/
def meanIncr (sqrt : F → F) (cMin : F) (nMin : Nat) (totalC : F) (totalN : Nat) (lg : F) :
    Except PyErr Bool := do
  if nMin = totalN then return false
  let a ← pyDiv ((totalN : F) - nMin) nMin
  let b ← pyDiv (1 : F) (totalN : F)
  let m := a * b
  let cota ← pySqrt sqrt (m / 2 * lg)
  let u ← pyDiv totalC totalN
  let v ← pyDiv cMin nMin
  return decide (u - v ≥ cota)

/-- `_mean_decr`, lines 154-160. -/
def meanDecr (sqrt : F → F) (cMax : F) (nMax : Nat) (totalC : F) (totalN : Nat) (lg : F) :
    Except PyErr Bool := do
  if nMax = totalN then return false
  let a ← pyDiv ((totalN : F) - nMax) nMax
  let b ← pyDiv (1 : F) (totalN : F)
  let m := a * b
  let cota ← pySqrt sqrt (m / 2 * lg)
  let u ← pyDiv cMax nMax
  let v ← pyDiv totalC totalN
  return decide (u - v ≥ cota)

/-- Lines 96-103: counters. -/
def count (s : HA F) (x : F) : HA F :=
  let s := { s with totalN := s.totalN + 1, totalC := s.totalC + x }
  let s := if s.nMin = 0 then { s with nMin := s.totalN, cMin := s.totalC } else s
  if s.nMax = 0 then { s with nMax := s.totalN, cMax := s.totalC } else s

/-- Lines 105-115: cut points. -/
def cut (c : HAPar F) (s : HA F) : Except PyErr (HA F) := do
  let a ← pyDiv (1 : F) (2 * (s.nMin : F))
  let cota ← pySqrt c.sqrt (a * c.logD)
  let b ← pyDiv (1 : F) (2 * (s.totalN : F))
  let cota1 ← pySqrt c.sqrt (b * c.logD)
  let u ← pyDiv s.cMin s.nMin
  let v ← pyDiv s.totalC s.totalN
  let s := if u + cota ≥ v + cota1 then { s with cMin := s.totalC, nMin := s.totalN } else s
  let a ← pyDiv (1 : F) (2 * (s.nMax : F))
  let cota ← pySqrt c.sqrt (a * c.logD)
  let u ← pyDiv s.cMax s.nMax
  let v ← pyDiv s.totalC s.totalN
  return if u - cota ≤ v - cota1 then { s with cMax := s.totalC, nMax := s.totalN } else s

/-- Lines 125-126 and 141-142. -/
def clear (s : HA F) : HA F :=
  { s with nMin := 0, nMax := 0, totalN := 0, cMin := 0, cMax := 0, totalC := 0 }

/-- Lines 117-135: increase monitoring. -/
def monitorIncr (c : HAPar F) (s : HA F) : Except PyErr (HA F) := do
  if ← meanIncr c.sqrt s.cMin s.nMin s.totalC s.totalN c.log2D then
    return { clear { s with nEst := s.totalN - s.nMin, cEst := s.totalC - s.cMin } with
      change := true, warning := false }
  else if ← meanIncr c.sqrt s.cMin s.nMin s.totalC s.totalN c.log2W then
    return { s with change := false, warning := true }
  else
    return { s with change := false, warning := false }

/-- Lines 137-142: decrease monitoring. -/
def monitorDecr (c : HAPar F) (s : HA F) : Except PyErr (HA F) := do
  if c.twoSide then
    if ← meanDecr c.sqrt s.cMax s.nMax s.totalC s.totalN c.log2D then
      return clear { s with nEst := s.totalN - s.nMax, cEst := s.totalC - s.cMax }
    else return s
  else return s

/-- `_update_estimations`, lines 178-190. -/
def updateEstimations (s : HA F) : Except PyErr (HA F) := do
  if s.totalN ≥ s.nEst then
    let e ← pyDiv s.totalC s.totalN
    return { s with cEst := 0, nEst := 0, estimation := e, delay := s.totalN }
  else
    let e ← pyDiv s.cEst s.nEst
    return { s with estimation := e, delay := s.nEst }

/-- `add_element`, lines 79-144. -/
def addElement (c : HAPar F) (s : HA F) (x : F) : Except PyErr (HA F) := do
  let s ← cut c (count s x)
  let s ← monitorIncr c s
  let s ← monitorDecr c s
  updateEstimations s

def run (c : HAPar F) (xs : List F) : Except PyErr (HA F) := xs.foldlM (addElement c) init

end HA

/-! ### HDDM_W -/

/-- `SampleInfo`, `hddm_w.py:65-68`.  `none` is a fresh object
(`EWMA_estimator = -1.0`, `independent_bounded_condition_sum = None`); the two
fields are always assigned together afterwards, so `some (ewma, ibcSum)`. -/
abbrev SampleInfo (F : Type := ℚ) := Option (F × F)

/-- `EWMA_estimator < 0`; a fresh object has -1. -/
def SampleInfo.neg {F : Type} [OfNat F 0] [LT F] [DecidableLT F] : SampleInfo F → Bool
  | none => true
  | some (e, _) => decide (e < 0)

/-- Parameters, lines 70-90; `logD`, `logW` are `log(1/confidence)`.  The numbers are rationals unless stated otherwise;
`HDDMWRise.lean` takes reals. -/
structure HWPar (F : Type := ℚ) where
  logD : F
  logW : F
  lam : F
  twoSide : Bool
  sqrt : F → F

/-- State, lines 70-90; `none` cut points are `float("inf")`. -/
structure HW (F : Type := ℚ) where
  total : SampleInfo F
  s1decr : SampleInfo F
  s1incr : SampleInfo F
  s2decr : SampleInfo F
  s2incr : SampleInfo F
  incrCut : Option F
  decrCut : Option F
  width : Nat
  delay : Nat
  change : Bool
  warning : Bool
  estimation : F

namespace HW

variable {F : Type} [Field F] [LinearOrder F]

/-- `__init__`, lines 70-90 and `reset`, 207-222. -/
def init : HW F := ⟨none, none, none, none, none, none, none, 0, 0, false, false, 0⟩

/-- One EWMA update of a `SampleInfo` (lines 111-119, 172-182, 195-205): restart
with the value when the estimator is negative, otherwise decay. -/
def ewma (lam : F) (s : SampleInfo F) (x : F) : F × F :=
  match s with
  | none => (x, 1)
  | some (e, b) =>
    if e < 0 then (x, 1)
    else (lam * x + (1 - lam) * e, lam * lam + (1 - lam) * (1 - lam) * b)

/-- `_detect_mean_increment`, lines 139-145. -/
def detectIncr (sqrt : F → F) (lg : F) (s1 s2 : SampleInfo F) : Except PyErr Bool :=
  match s1, s2 with
  | some (e1, b1), some (e2, b2) =>
    if e1 < 0 ∨ e2 < 0 then .ok false
    else do
      let bound ← pySqrt sqrt ((b1 + b2) * lg / 2)
      return decide (e2 - e1 > bound)
  | _, _ => .ok false

/-- `x < cut` where `cut` may be infinite. -/
def ltCut (x : F) : Option F → Bool
  | none => true
  | some c => decide (x < c)

/-- `x > cut` where `cut` may be infinite. -/
def gtCut (x : F) : Option F → Bool
  | none => false
  | some c => decide (x > c)

/-- `_update_incr_statistics`, lines 159-182 (`t` is the value of `total`). -/
def updIncr (c : HWPar F) (s : HW F) (t : F × F) (x : F) : Except PyErr (HW F) := do
  let bound ← pySqrt c.sqrt (t.2 * c.logD / 2)
  if ltCut (t.1 + bound) s.incrCut then
    return { s with incrCut := some (t.1 + bound), s1incr := some t, s2incr := none, delay := 0 }
  else
    return { s with delay := s.delay + 1, s2incr := some (ewma c.lam s.s2incr x) }

/-- `_update_decr_statistics`, lines 184-205. -/
def updDecr (c : HWPar F) (s : HW F) (t : F × F) (x : F) : Except PyErr (HW F) := do
  let eps ← pySqrt c.sqrt (t.2 * c.logD / 2)
  if gtCut (t.1 - eps) s.decrCut then
    return { s with decrCut := some (t.1 - eps), s1decr := some t, s2decr := none }
  else
    return { s with s2decr := some (ewma c.lam s.s2decr x) }

/-- `add_element`, lines 92-137.  When the decrease monitor fires, `reset`
replaces `total` by a fresh object, whose estimator -1 becomes the estimation. -/
def addElement (c : HWPar F) (s : HW F) (x : F) : Except PyErr (HW F) := do
  let t := ewma c.lam s.total x
  let s := { s with width := s.width + 1, total := some t }
  let s ← updIncr c s t x
  if ← detectIncr c.sqrt c.logD s.s1incr s.s2incr then
    return { init with change := true, warning := false }
  else
    let w ← detectIncr c.sqrt c.logW s.s1incr s.s2incr
    let s := { s with change := false, warning := w }
    let s ← updDecr c s t x
    if c.twoSide then
      if ← detectIncr c.sqrt c.logD s.s2decr s.s1decr then
        return { init with estimation := -1 }
      else return { s with estimation := t.1 }
    else return { s with estimation := t.1 }

def run (c : HWPar F) (xs : List F) : Except PyErr (HW F) := xs.foldlM (addElement c) init

end HW

end Verif.Drift
