import Verif.Common

/-!
Model of the balanced generators `data/sea_generator.py`,
`data/stagger_generator.py`, `data/sine_generator.py`,
`data/mixed_generator.py` and `data/agrawal_generator.py`.

The random source is any state `ρ` with a function returning the next value;
`np.sin(·)` is an arbitrary function.  The rejection loop takes fuel and gives
`none` when it did not find a sample of the wanted class.
-/

namespace Verif.Streams.Gen

/-- A random source: `rand` (uniform numbers) and `randint n` (integers). -/
structure Rng (ρ : Type) where
  rand : ρ → ℚ × ρ
  randint : Nat → ρ → Nat × ρ

/-- The rejection loop shared by the generators (`sea` 236-250, `stagger`
192-207, `sine` 232-244, `mixed` 187-203, `agrawal` 232-257): draw features,
classify, accept when unbalanced or when the class is the wanted one. Result:
features, class, `next_class_should_be_zero`, random state. -/
def rejection {ρ φ : Type} (draw : ρ → φ × ρ) (cls : φ → Nat) (balance : Bool) :
    Nat → Bool → ρ → Option (φ × Nat × Bool × ρ)
  | 0, _, _ => none
  | fuel + 1, nz, r =>
    let (f, r') := draw r
    let group := cls f
    if !balance then some (f, group, nz, r')
    else if (nz && group == 0) || (!nz && group == 1) then some (f, group, !nz, r')
    else rejection draw cls balance fuel nz r'

/-- A generator: how features are drawn, the classification function and what
happens after acceptance (noise, perturbation): new emitted features, label. -/
structure Generator (ρ φ : Type) where
  draw : ρ → φ × ρ
  cls : φ → Nat
  post : φ → Nat → ρ → (φ × Nat) × ρ

/-- `next_sample(batch_size)`: the loop over `j` (`sea` 232-258 etc.). -/
def nextBatch {ρ φ : Type} (g : Generator ρ φ) (balance : Bool) (fuel : Nat) :
    Nat → Bool → ρ → Option (List (φ × Nat) × Bool × ρ)
  | 0, nz, r => some ([], nz, r)
  | n + 1, nz, r =>
    match rejection g.draw g.cls balance fuel nz r with
    | none => none
    | some (f, group, nz', r') =>
      let (out, r'') := g.post f group r'
      match nextBatch g balance fuel n nz' r'' with
      | none => none
      | some (rest, nz'', r3) => some (out :: rest, nz'', r3)

/-- A sequence of `next_sample` calls. -/
def nextBatches {ρ φ : Type} (g : Generator ρ φ) (balance : Bool) (fuel : Nat) :
    List Nat → Bool → ρ → Option (List (φ × Nat) × Bool × ρ)
  | [], nz, r => some ([], nz, r)
  | b :: bs, nz, r =>
    match nextBatch g balance fuel b nz r with
    | none => none
    | some (out, nz', r') =>
      match nextBatches g balance fuel bs nz' r' with
      | none => none
      | some (rest, nz'', r'') => some (out ++ rest, nz'', r'')

/-! ### SEA -/

/-- `sea_generator.py` 275-377. -/
def seaThreshold : Fin 4 → ℚ
  | 0 => 8
  | 1 => 9
  | 2 => 7
  | 3 => 19 / 2

def seaClass (k : Fin 4) (f : ℚ × ℚ × ℚ) : Nat := if f.1 + f.2.1 ≤ seaThreshold k then 0 else 1

/-- `sea_generator.py` 238-240. -/
def seaDraw {ρ : Type} (g : Rng ρ) (r : ρ) : (ℚ × ℚ × ℚ) × ρ :=
  let (a, r) := g.rand r
  let (b, r) := g.rand r
  let (c, r) := g.rand r
  ((10 * a, 10 * b, 10 * c), r)

/-- `sea_generator.py` 252-253. -/
def seaNoise {ρ : Type} (g : Rng ρ) (noise : ℚ) (f : ℚ × ℚ × ℚ) (group : Nat) (r : ρ) :
    ((ℚ × ℚ × ℚ) × Nat) × ρ :=
  let (u, r) := g.rand r
  ((f, if 1 / 100 + u ≤ noise then (if group = 0 then 1 else 0) else group), r)

def sea {ρ : Type} (g : Rng ρ) (k : Fin 4) (noise : ℚ) : Generator ρ (ℚ × ℚ × ℚ) :=
  ⟨seaDraw g, seaClass k, seaNoise g noise⟩

/-! ### STAGGER -/

/-- `stagger_generator.py` 229-305, features (size, color, shape). -/
def staggerClass : Fin 3 → Nat × Nat × Nat → Nat
  | 0, (size, color, _) => if size = 0 ∧ color = 0 then 1 else 0
  | 1, (_, color, shape) => if color = 2 ∨ shape = 0 then 1 else 0
  | 2, (size, _, _) => if size = 1 ∨ size = 2 then 1 else 0

/-- `stagger_generator.py` 194-196. -/
def staggerDraw {ρ : Type} (g : Rng ρ) (r : ρ) : (Nat × Nat × Nat) × ρ :=
  let (a, r) := g.randint 3 r
  let (b, r) := g.randint 3 r
  let (c, r) := g.randint 3 r
  ((a, b, c), r)

def stagger {ρ : Type} (g : Rng ρ) (k : Fin 3) : Generator ρ (Nat × Nat × Nat) :=
  ⟨staggerDraw g, staggerClass k, fun f c r => ((f, c), r)⟩

/-! ### Sine -/

/-- `sine_generator.py` 271-358; `sin1 x = sin x`, `sin3 x = sin(3 pi x)`. The
features carry the two noise attributes as well. -/
def sineClass (sin1 sin3 : ℚ → ℚ) : Fin 4 → ℚ × ℚ × List ℚ → Nat
  | 0, (a, b, _) => if a ≥ sin1 b then 0 else 1
  | 1, (a, b, _) => if a < sin1 b then 0 else 1
  | 2, (a, b, _) => if a ≥ 1 / 2 + 3 / 10 * sin3 b then 0 else 1
  | 3, (a, b, _) => if a < 1 / 2 + 3 / 10 * sin3 b then 0 else 1

/-- `sine_generator.py` 234-235. -/
def sineDraw {ρ : Type} (g : Rng ρ) (r : ρ) : (ℚ × ℚ × List ℚ) × ρ :=
  let (a, r) := g.rand r
  let (b, r) := g.rand r
  ((a, b, []), r)

/-- `sine_generator.py` 249-254. -/
def sinePost {ρ : Type} (g : Rng ρ) (hasNoise : Bool) (f : ℚ × ℚ × List ℚ) (c : Nat) (r : ρ) :
    ((ℚ × ℚ × List ℚ) × Nat) × ρ :=
  if hasNoise then
    let (n1, r) := g.rand r
    let (n2, r) := g.rand r
    (((f.1, f.2.1, [n1, n2]), c), r)
  else ((f, c), r)

def sine {ρ : Type} (g : Rng ρ) (sin1 sin3 : ℚ → ℚ) (k : Fin 4) (hasNoise : Bool) :
    Generator ρ (ℚ × ℚ × List ℚ) :=
  ⟨sineDraw g, sineClass sin1 sin3 k, sinePost g hasNoise⟩

/-! ### Mixed -/

/-- `mixed_generator.py` 247 and 277. -/
def mixedZ (sin3 : ℚ → ℚ) (x y : ℚ) : Bool := decide (y < 1 / 2 + 3 / 10 * sin3 x)

/-- `mixed_generator.py` 220-278. -/
def mixedClass (sin3 : ℚ → ℚ) : Fin 2 → Nat × Nat × ℚ × ℚ → Nat
  | 0, (v, w, x, y) =>
    if (v = 1 ∧ w = 1) ∨ (v = 1 ∧ mixedZ sin3 x y = true) ∨ (w = 1 ∧ mixedZ sin3 x y = true) then 0
    else 1
  | 1, (v, w, x, y) =>
    if (v = 1 ∧ w = 1) ∨ (v = 1 ∧ mixedZ sin3 x y = true) ∨ (w = 1 ∧ mixedZ sin3 x y = true) then 1
    else 0

/-- `mixed_generator.py` 189-192. -/
def mixedDraw {ρ : Type} (g : Rng ρ) (r : ρ) : (Nat × Nat × ℚ × ℚ) × ρ :=
  let (a, r) := g.rand r
  let (b, r) := g.rand r
  let (c, r) := g.rand r
  let (d, r) := g.rand r
  ((if a < 1 / 2 then 0 else 1, if b < 1 / 2 then 0 else 1, c, d), r)

def mixed {ρ : Type} (g : Rng ρ) (sin3 : ℚ → ℚ) (k : Fin 2) : Generator ρ (Nat × Nat × ℚ × ℚ) :=
  ⟨mixedDraw g, mixedClass sin3 k, fun f c r => ((f, c), r)⟩

/-! ### AGRAWAL -/

/-- The nine attributes, `agrawal_generator.py` 112-113. -/
structure Agrawal where
  salary : ℚ
  commission : ℚ
  age : ℚ
  elevel : Nat
  car : Nat
  zipcode : Nat
  hvalue : ℚ
  hyears : ℚ
  loan : ℚ

/-- `0 if lo <= x <= hi else 1`. -/
def band (lo x hi : ℚ) : Nat := if lo ≤ x ∧ x ≤ hi then 0 else 1

/-- `agrawal_generator.py` 317-793. -/
def agrawalClass : Fin 10 → Agrawal → Nat
  | 0, a => if a.age < 40 ∨ 60 ≤ a.age then 0 else 1
  | 1, a =>
    if a.age < 40 then band 50000 a.salary 100000
    else if a.age < 60 then band 75000 a.salary 125000
    else band 25000 a.salary 75000
  | 2, a =>
    if a.age < 40 then (if a.elevel = 0 ∨ a.elevel = 1 then 0 else 1)
    else if a.age < 60 then (if a.elevel = 1 ∨ a.elevel = 2 ∨ a.elevel = 3 then 0 else 1)
    else (if a.elevel = 2 ∨ a.elevel = 3 ∨ a.elevel = 4 then 0 else 1)
  | 3, a =>
    if a.age < 40 then
      if a.elevel = 0 ∨ a.elevel = 1 then band 25000 a.salary 75000 else band 50000 a.salary 100000
    else if a.age < 60 then
      if a.elevel = 1 ∨ a.elevel = 2 ∨ a.elevel = 3 then band 50000 a.salary 100000
      else band 75000 a.salary 125000
    else
      if a.elevel = 2 ∨ a.elevel = 3 ∨ a.elevel = 4 then band 50000 a.salary 100000
      else band 25000 a.salary 75000
  | 4, a =>
    if a.age < 40 then
      if 50000 ≤ a.salary ∧ a.salary ≤ 100000 then band 100000 a.loan 300000
      else band 200000 a.salary 400000
    else if a.age < 60 then
      if 75000 ≤ a.salary ∧ a.salary ≤ 125000 then
        (if 200000 ≤ a.salary ∧ a.loan ≤ 400000 then 0 else 1)
      else band 300000 a.salary 500000
    else
      if 25000 ≤ a.salary ∧ a.salary ≤ 75000 then band 300000 a.loan 500000
      else band 75000 a.loan 300000
  | 5, a =>
    let total := a.salary + a.commission
    if a.age < 40 then band 50000 total 100000
    else if a.age < 60 then band 75000 total 125000
    else band 25000 total 75000
  | 6, a => if 2 * (a.salary + a.commission) / 3 - a.loan / 5 - 20000 > 1 then 0 else 1
  | 7, a => if 2 * (a.salary + a.commission) / 3 - 5000 * a.elevel - 20000 > 1 then 0 else 1
  | 8, a =>
    if 2 * (a.salary + a.commission) / 3 - 5000 * a.elevel - a.loan / 5 - 10000 > 1 then 0 else 1
  | 9, a =>
    let equity := if a.hyears ≥ 20 then a.hvalue * (a.hyears - 20) / 10 else 0
    if 2 * (a.salary + a.commission) / 3 - 5000 * a.elevel + equity / 5 - 10000 > 1 then 0 else 1

/-- `agrawal_generator.py` 234-243. -/
def agrawalDraw {ρ : Type} (g : Rng ρ) (r : ρ) : Agrawal × ρ :=
  let (u, r) := g.rand r
  let salary := 20000 + 130000 * u
  let (commission, r) :=
    if salary ≥ 75000 then ((0 : ℚ), r)
    else let (u, r) := g.rand r; (10000 + 75000 * u, r)
  let (a, r) := g.randint 61 r
  let (elevel, r) := g.randint 5 r
  let (car, r) := g.randint 20 r
  let (zipcode, r) := g.randint 9 r
  let (u, r) := g.rand r
  let hvalue := (9 - (zipcode : ℚ)) * 100000 * (1 / 2 + u)
  let (hy, r) := g.randint 30 r
  let (u, r) := g.rand r
  (⟨salary, commission, 20 + a, elevel, car, zipcode, hvalue, 1 + hy, u * 500000⟩, r)

/-- `_perturb_value`, `agrawal_generator.py` 277-305. -/
def perturbValue {ρ : Type} (g : Rng ρ) (pert : ℚ) (val lo hi : ℚ) (range : Option ℚ) (r : ρ) :
    ℚ × ρ :=
  let range := range.getD (hi - lo)
  let (u, r) := g.rand r
  let val := val + range * (2 * (u - 1 / 2)) * pert
  (if val < lo then lo else if val > hi then hi else val, r)

/-- `agrawal_generator.py` 259-266; `round` is `np.round`. -/
def agrawalPost {ρ : Type} (g : Rng ρ) (round : ℚ → ℚ) (pert : ℚ) (a : Agrawal) (c : Nat) (r : ρ) :
    (Agrawal × Nat) × ρ :=
  if pert > 0 then
    let (salary, r) := perturbValue g pert a.salary 20000 150000 none r
    let (commission, r) :=
      if a.commission > 0 then perturbValue g pert a.commission 10000 75000 none r
      else (a.commission, r)
    let (age, r) := perturbValue g pert a.age 20 80 none r
    let (hvalue, r) := perturbValue g pert a.hvalue ((9 - (a.zipcode : ℚ)) * 100000) 0 (some 135000) r
    let (hyears, r) := perturbValue g pert a.hyears 1 30 none r
    let (loan, r) := perturbValue g pert a.loan 0 500000 none r
    ((⟨salary, commission, round age, a.elevel, a.car, a.zipcode, hvalue, round hyears, loan⟩, c), r)
  else ((a, c), r)

def agrawal {ρ : Type} (g : Rng ρ) (round : ℚ → ℚ) (k : Fin 10) (pert : ℚ) : Generator ρ Agrawal :=
  ⟨agrawalDraw g, agrawalClass k, agrawalPost g round pert⟩

/-! ### generate_drift -/

/-- `generate_drift` (`sea` 265-273, `stagger` 219-227, `sine` 261-269,
`agrawal` 307-315): draw functions until a different one comes up. -/
def generateDrift {ρ : Type} (g : Rng ρ) (n cur : Nat) : Nat → ρ → Option (Nat × ρ)
  | 0, _ => none
  | fuel + 1, r =>
    let (k, r') := g.randint n r
    if k = cur then generateDrift g n cur fuel r' else some (k, r')

/-- `mixed_generator.py` 280-285. -/
def mixedDrift (cur : Nat) : Int := 1 - cur

end Verif.Streams.Gen
