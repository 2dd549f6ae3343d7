import Verif.Trees.Kinds
import Verif.Trees.Criteria

/-!
C295: does it matter to `HoeffdingTreeClassifier` which numbers stand for the classes?  The tree of `Trees/Units.lean`,
trained on rows whose labels have been renamed.

Simplifications: those of `Trees/Units.lean`.
-/

namespace Verif.Trees.HL

open Verif.Trees
open Verif.Bayes (density)
open Verif.Trees.Criteria (infoGain logRange hellinger hellingerOf numGreater entropyDict entropyList weight giniOf)

/-! ### Specification -/

/-- Class weights or votes under other names. -/
def named (σ : Int → Int) (s : List (Int × ℚ)) : List (Int × ℚ) := s.map fun p => (σ p.1, p.2)

/-- The row with its class under the other name. -/
def Row.named (σ : Int → Int) (r : Row) : Row := { r with y := σ r.y }

/-- A renaming of the labels 0, 1, 2, ... that keeps their order. -/
structure Renames (σ : Int → Int) : Prop where
  mono : StrictMono σ
  nonneg : ∀ c, 0 ≤ c → 0 ≤ σ c

mutual
/-- The same tree with the classes under other names. -/
def T.named {O O' : Type} (σ : Int → Int) (φ : Leaf O → Leaf O') : T O → T O'
  | .leaf l => .leaf (φ l)
  | .split t s kids => .split t (HL.named σ s) (kids.named σ φ)
/-- See `T.named`. -/
def F.named {O O' : Type} (σ : Int → Int) (φ : Leaf O → Leaf O') : F O → F O'
  | .nil => .nil
  | .cons j t rest => .cons j (t.named σ φ) (rest.named σ φ)
end

/-- The class statistics of a leaf under other names. -/
def Leaf.named (σ : Int → Int) (l : Leaf Unit) : Leaf Unit := { l with stats := HL.named σ l.stats }

/-! ### Trees -/

section
variable {O : Type} (σ : Int → Int) (φ : Leaf O → Leaf O)

mutual
theorem T.filter_named (x : List ℚ) (r : T O) (pre : Path) : (r.named σ φ).filter x pre = r.filter x pre := by
  match r with
  | .leaf l => rfl
  | .split t s kids =>
    rw [T.named, T.filter, T.filter]
    cases t.branch x with
    | error e => rfl
    | ok b => simp only [F.filter_named x kids]
theorem F.filter_named (x : List ℚ) (kids : F O) (b : Nat) (pre : Path) :
    (kids.named σ φ).filter x b pre = kids.filter x b pre := by
  match kids with
  | .nil => rfl
  | .cons j t rest => rw [F.named, F.filter, F.filter, T.filter_named x t, F.filter_named x rest]
end

mutual
theorem T.get_named (r : T O) (p : Path) : (r.named σ φ).get p = (r.get p).map (T.named σ φ) := by
  match r, p with
  | .leaf l, [] => rfl
  | .split t s kids, [] => rfl
  | .leaf l, _ :: _ => rfl
  | .split t s kids, i :: p => simp only [T.named, T.get, F.get_named kids]
theorem F.get_named (kids : F O) (i : Nat) (p : Path) : (kids.named σ φ).get i p = (kids.get i p).map (T.named σ φ) := by
  match kids with
  | .nil => rfl
  | .cons j t rest =>
    simp only [F.named, F.get]
    by_cases e : i = j
    · simp only [if_pos e]; exact T.get_named t p
    · simp only [if_neg e]; exact F.get_named rest i p
end

mutual
theorem T.modify_named (f f' : T O → T O) (r : T O) (p : Path) (h : ∀ u, r.get p = some u → f' (u.named σ φ) = (f u).named σ φ) :
    (r.named σ φ).modify f' p = (r.modify f p).named σ φ := by
  match r, p with
  | .leaf l, [] => exact h _ rfl
  | .split t s kids, [] => exact h _ rfl
  | .leaf l, _ :: _ => rfl
  | .split t s kids, i :: p =>
    simp only [T.get] at h
    simp only [T.named, T.modify, F.modify_named f f' kids i p h]
theorem F.modify_named (f f' : T O → T O) (kids : F O) (i : Nat) (p : Path)
    (h : ∀ u, kids.get i p = some u → f' (u.named σ φ) = (f u).named σ φ) :
    (kids.named σ φ).modify f' i p = (kids.modify f i p).named σ φ := by
  match kids with
  | .nil => rfl
  | .cons j t rest =>
    rw [F.get] at h
    simp only [F.named, F.modify]
    by_cases e : i = j
    · rw [if_pos e] at h
      simp only [if_pos e, F.named]
      rw [T.modify_named f f' t p h]
    · rw [if_neg e] at h
      simp only [if_neg e, F.named]
      rw [F.modify_named f f' rest i p h]
end

theorem F.snoc_named (kids : F O) (i : Nat) (t : T O) : (kids.snoc i t).named σ φ = (kids.named σ φ).snoc i (t.named σ φ) := by
  match kids with
  | .nil => rfl
  | .cons j u rest => simp only [F.snoc, F.named, F.snoc_named rest i t]

theorem newKids_named (cfg : Cfg O) (hnew : ∀ a s, φ (newLeaf cfg a s) = newLeaf cfg a (named σ s)) (ds : List Stats) (i : Nat) :
    (newKids cfg i ds).named σ φ = newKids cfg i (ds.map (named σ)) := by
  induction ds generalizing i with
  | nil => rfl
  | cons d ds ih => simp only [newKids, F.named, T.named, hnew, ih, List.map_cons]

/-- The renamed leaves do what the leaves do. -/
structure LeafNamed (cfg : Cfg O) : Prop where
  new : ∀ a s, φ (newLeaf cfg a s) = newLeaf cfg a (named σ s)
  active : ∀ l, (φ l).active = l.active
  stats : ∀ l, (φ l).stats = named σ l.stats

/-- An instance and the same under the other name of its class. -/
structure EvNamed (cfg : Cfg O) (e e' : Ev O) : Prop where
  x : e'.x = e.x
  memory : e'.memory = e.memory
  learn : ∀ l, φ (l.learn cfg e.x e.y e.w) = (φ l).learn cfg e.x e'.y e'.w
  attempt : ∀ l, (attempt cfg e l).named σ φ = HL.attempt cfg e' (φ l)

variable {σ φ} {cfg : Cfg O}

theorem manage_named (hm : LeafNamed σ φ cfg) (m : List (Path × Bool)) (r : T O) :
    manage cfg (r.named σ φ) m = (manage cfg r m).named σ φ := by
  unfold manage
  induction m generalizing r with
  | nil => rfl
  | cons q m ih =>
    rw [List.foldl_cons, List.foldl_cons, ← ih]
    congr 1
    apply T.modify_named
    intro u _
    cases u with
    | split t s kids => rfl
    | leaf l =>
      simp only [T.named, setActive, hm.active, hm.stats]
      by_cases e : l.active = q.2
      · rw [if_pos e, if_pos e, T.named]
      · rw [if_neg e, if_neg e, T.named, hm.new]

theorem step_named (hm : LeafNamed σ φ cfg) (root : Option (T O)) (e e' : Ev O) (he : EvNamed σ φ cfg e e') :
    step cfg (root.map (T.named σ φ)) e' = (step cfg root e).map (T.named σ φ) := by
  have h0 : φ (newLeaf cfg true []) = newLeaf cfg true [] := hm.new true []
  have hroot : (root.map (T.named σ φ)).getD (.leaf (newLeaf cfg true [])) = (root.getD (.leaf (newLeaf cfg true []))).named σ φ := by
    cases root with
    | none => simp only [Option.map_none, Option.getD_none, T.named, h0]
    | some r => rfl
  have hnew : (newLeaf cfg true []).learn cfg e.x e'.y e'.w = φ ((newLeaf cfg true []).learn cfg e.x e.y e.w) := by
    rw [he.learn, h0]
  unfold step
  simp only [hroot, he.x, hnew, he.memory]
  generalize root.getD (.leaf (newLeaf cfg true [])) = r
  rw [T.filter_named σ φ e.x]
  cases r.filter e.x [] with
  | error err => rfl
  | ok f =>
    cases f with
    | missing p b =>
      have key : manage cfg ((r.named σ φ).modify (fun n => match n with
            | .split t s kids => .split t s (kids.snoc b (attempt cfg e' (φ ((newLeaf cfg true []).learn cfg e.x e.y e.w))))
            | n => n) p) e.memory =
          (manage cfg (r.modify (fun n => match n with
            | .split t s kids => .split t s (kids.snoc b (attempt cfg e ((newLeaf cfg true []).learn cfg e.x e.y e.w)))
            | n => n) p) e.memory).named σ φ := by
        rw [← manage_named hm]
        congr 1
        apply T.modify_named
        intro u _
        cases u with
        | leaf l => rfl
        | split t s kids => simp only [T.named, F.snoc_named, he.attempt]
      simp only [T.get_named]
      cases hg : r.get p with
      | none => simp only [Option.map_none]; split <;> first | rfl | exact congrArg Except.ok key
      | some u =>
        cases u with
        | leaf l => simp only [Option.map_some, T.named]; split <;> first | rfl | exact congrArg Except.ok key
        | split t s kids =>
          simp only [Option.map_some, T.named]
          cases t with
          | multi m => simp only []; exact congrArg Except.ok key
          | num t => simp only []; split <;> first | rfl | exact congrArg Except.ok key
          | nom t => simp only []; split <;> first | rfl | exact congrArg Except.ok key
    | node p =>
      simp only [T.get_named]
      cases hg : r.get p with
      | none => simp only [Option.map_none, manage_named hm]; rfl
      | some u =>
        cases u with
        | leaf l =>
          simp only [Option.map_some, T.named]
          rw [← he.learn l]
          have : manage cfg ((r.named σ φ).modify (fun _ => HL.attempt cfg e' (φ (l.learn cfg e.x e.y e.w))) p) e.memory =
              (manage cfg (r.modify (fun _ => HL.attempt cfg e (l.learn cfg e.x e.y e.w)) p) e.memory).named σ φ := by
            rw [← manage_named hm]
            congr 1
            apply T.modify_named
            intro u _
            rw [he.attempt]
          rw [this]; rfl
        | split t s kids =>
          simp only [Option.map_some, T.named]
          cases t with
          | num t => simp only [manage_named hm]; rfl
          | nom t => simp only [manage_named hm]; rfl
          | multi m =>
            simp only []
            cases hx : xget e.x m.att with
            | error err => rfl
            | ok v =>
              simp only []
              cases ha : m.addBranch v with
              | error err => rfl
              | ok q =>
                obtain ⟨id, m2⟩ := q
                simp only []
                have : manage cfg ((r.named σ φ).modify (fun _ => .split (.multi m2) (named σ s)
                      ((kids.named σ φ).snoc id (.leaf (φ ((newLeaf cfg true []).learn cfg e.x e.y e.w))))) p) e.memory =
                    (manage cfg (r.modify (fun _ => .split (.multi m2) s
                      (kids.snoc id (.leaf ((newLeaf cfg true []).learn cfg e.x e.y e.w)))) p) e.memory).named σ φ := by
                  rw [← manage_named hm]
                  congr 1
                  apply T.modify_named
                  intro u _
                  simp only [T.named, F.snoc_named]
                rw [this]; rfl

theorem run_named (hm : LeafNamed σ φ cfg) (root : Option (T O)) (es es' : List (Ev O)) (he : List.Forall₂ (EvNamed σ φ cfg) es es') :
    run cfg (root.map (T.named σ φ)) es' = (run cfg root es).map (Option.map (T.named σ φ)) := by
  induction he generalizing root with
  | nil => rfl
  | @cons e e' es es' h _ ih =>
    rw [run, run, step_named hm root e e' h]
    cases hs : step cfg root e with
    | error err => rfl
    | ok r => exact ih (some r)

theorem votesAt_named (x : List ℚ) (hv : ∀ l, (φ l).votes cfg x = named σ (l.votes cfg x)) (root : Option (T O)) :
    votesAt cfg (root.map (T.named σ φ)) x = (votesAt cfg root x).map (named σ) := by
  cases root with
  | none => rfl
  | some r =>
    simp only [votesAt, Option.map_some, T.filter_named σ φ x, T.get_named]
    cases r.filter x [] with
    | error e => rfl
    | ok f =>
      cases f with
      | missing p b =>
        cases hg : r.get p with
        | none => simp only [hg, Option.map_none]; rfl
        | some u => cases u <;> simp only [hg, Option.map_some, T.named] <;> rfl
      | node p =>
        cases hg : r.get p with
        | none => simp only [hg, Option.map_none]; rfl
        | some u => cases u <;> simp only [hg, Option.map_some, T.named, hv] <;> rfl

end

/-! ### Leaves and observers -/

section
variable {P : Type}

/-- The name of a label kept as a natural number. -/
def nat (σ : Int → Int) (c : Nat) : Nat := (σ c).toNat

/-- An attribute observer with the classes under other names; `ρ` does it for observers of other kinds. -/
def AttObs.named (σ : Int → Int) (ρ : P → P) : AttObs P → AttObs P
  | .gauss g => .gauss (g.map fun p => (nat σ p.1, p.2))
  | .other p => .other (ρ p)
  | .off => .off

/-- Criterion, split decision and the observers of other kinds treat labels as names. -/
structure Par.Blind (par : Par P) (σ : Int → Int) (ρ : P → P) : Prop where
  merit : ∀ s ds, par.merit (named σ s) (ds.map (named σ)) = par.merit s ds
  pick : ∀ s l, par.pick (named σ s) l = par.pick s l
  start : par.start.map (AttObs.named σ ρ) = par.start
  update : ∀ p v y w, 0 ≤ y → par.update (ρ p) v (σ y) w = ρ (par.update p v y w)
  propose : ∀ p s, par.propose (ρ p) (named σ s) = (par.propose p s).map fun b => (b.1, b.2.1.map (named σ), b.2.2)
  prob : ∀ p v c, σ 0 = 0 → par.prob (ρ p) v (σ c) = par.prob p v c

theorem total_named (σ : Int → Int) (s : Stats) : total (named σ s) = total s := by
  unfold total named
  rw [List.map_map]
  rfl

theorem alter_named {K V : Type} [LinearOrder K] (σ : K → K) (h : StrictMono σ) (f : Option V → V) (d : SDict K V) (k : K) :
    SDict.alter f (d.map fun p => (σ p.1, p.2)) (σ k) = (SDict.alter f d k).map fun p => (σ p.1, p.2) := by
  induction d with
  | nil => rfl
  | cons a d ih =>
    obtain ⟨k', v⟩ := a
    simp only [List.map_cons, SDict.alter, h.injective.eq_iff, h.lt_iff_lt]
    split
    · rfl
    · split
      · rfl
      · rw [List.map_cons, ← ih]

theorem bump_named (σ : Int → Int) (h : StrictMono σ) (s : Stats) (y : Int) (w : ℚ) : bump (named σ s) (σ y) w = named σ (bump s y w) :=
  alter_named σ h _ s y

theorem maxKey_named (σ : Int → Int) (s : List (Int × ℚ)) : maxKey (named σ s) = (maxKey s).map σ := by
  cases s with
  | nil => rfl
  | cons a l =>
    simp only [named, List.map_cons, maxKey, Option.map_some, Option.some.injEq]
    have : ∀ b : Int × ℚ, (l.map fun p => (σ p.1, p.2)).foldl (fun (b : Int × ℚ) c => if b.2 < c.2 then c else b) (σ b.1, b.2) =
        (fun p : Int × ℚ => (σ p.1, p.2)) (l.foldl (fun (b : Int × ℚ) c => if b.2 < c.2 then c else b) b) := by
      induction l with
      | nil => intro b; rfl
      | cons c l ih =>
        intro b
        simp only [List.map_cons, List.foldl_cons]
        by_cases hc : b.2 < c.2
        · simp only [if_pos hc]; exact ih c
        · simp only [if_neg hc]; exact ih b
    rw [this]

variable {σ : Int → Int} (hσ : Renames σ)
include hσ

theorem nat_cast (c : Nat) : ((nat σ c : Nat) : Int) = σ c := Int.toNat_of_nonneg (hσ.nonneg c (by omega))

theorem nat_mono : StrictMono (nat σ) := by
  intro a b h
  have := hσ.mono (show (a : Int) < b by omega)
  have h1 := nat_cast hσ a
  have h2 := nat_cast hσ b
  omega

theorem nat_toNat (y : Int) (hy : 0 ≤ y) : (σ y).toNat = nat σ y.toNat := by
  unfold nat
  rw [Int.toNat_of_nonneg hy]

theorem nat_toNat_zero (hz : σ 0 = 0) (y : Int) : (σ y).toNat = nat σ y.toNat := by
  rcases le_or_gt 0 y with h | h
  · exact nat_toNat hσ y h
  · have h1 := hσ.mono h
    rw [hz] at h1
    have : y.toNat = 0 := by omega
    rw [this, nat]
    simp only [Nat.cast_zero, hz]
    omega

theorem gUpdate_named (g : GObs) (c : Nat) (v w : ℚ) :
    gUpdate (g.map fun p => (nat σ p.1, p.2)) (nat σ c) v w = (gUpdate g c v w).map fun p => (nat σ p.1, p.2) := by
  have hm := nat_mono hσ
  induction g with
  | nil => rfl
  | cons a g ih =>
    obtain ⟨d, r⟩ := a
    simp only [List.map_cons, gUpdate, hm.injective.eq_iff, hm.lt_iff_lt]
    split
    · rfl
    · split
      · rfl
      · rw [List.map_cons, ← ih]

theorem lookup_named {V : Type} (g : List (Nat × V)) (c : Nat) : (g.map fun p => (nat σ p.1, p.2)).lookup (nat σ c) = g.lookup c := by
  induction g with
  | nil => rfl
  | cons a g ih =>
    obtain ⟨d, r⟩ := a
    simp only [List.map_cons, List.lookup_cons]
    by_cases h : c = d
    · simp [h]
    · have h2 : nat σ c ≠ nat σ d := fun e => h ((nat_mono hσ).injective e)
      rw [beq_false_of_ne h, beq_false_of_ne h2]
      exact ih

theorem splitPoints_named (n : Nat) (g : GObs) : splitPoints n (g.map fun p => (nat σ p.1, p.2)) = splitPoints n g := by
  cases g with
  | nil => rfl
  | cons a g => simp only [List.map_cons, splitPoints, List.foldl_map]

theorem sides_named (l : List (Nat × Option ℚ × Option ℚ)) :
    sides (l.map fun p => (nat σ p.1, p.2)) = (sides l).map (named σ) := by
  unfold sides named
  simp only [List.filterMap_map, List.map_cons, List.map_nil, List.map_filterMap]
  congr 1
  · apply List.filterMap_congr
    intro p _
    cases h : p.2.1 <;> simp [h, nat_cast hσ]
  · congr 1
    apply List.filterMap_congr
    intro p _
    cases h : p.2.2 <;> simp [h, nat_cast hσ]

theorem gSplit_named (pdf cdf : Est → ℚ → ℚ) (g : GObs) (v : ℚ) :
    gSplit pdf cdf (g.map fun p => (nat σ p.1, p.2)) v = (gSplit pdf cdf g v).map fun p => (nat σ p.1, p.2) := by
  unfold gSplit
  rw [List.map_map, List.map_map]
  apply List.map_congr_left
  intro p _
  simp only [Function.comp_apply]
  split
  · rfl
  · split <;> rfl

theorem bestPoint_named {D : Type} (dist dist' : ℚ → D) (merit merit' : D → WithBot ℚ) (f : D → D) (h : ∀ v, dist' v = f (dist v))
    (hm : ∀ d, merit' (f d) = merit d) (l : List ℚ) (best : Option (ℚ × D × WithBot ℚ)) :
    bestPoint dist' merit' l (best.map fun r => (r.1, f r.2.1, r.2.2)) = (bestPoint dist merit l best).map fun r => (r.1, f r.2.1, r.2.2) := by
  induction l generalizing best with
  | nil => rfl
  | cons s l ih =>
    cases best with
    | none =>
      simp only [Option.map_none, bestPoint, h, hm]
      exact ih (some (s, dist s, merit (dist s)))
    | some r =>
      simp only [Option.map_some, bestPoint, h, hm]
      by_cases hm : merit (dist s) > r.2.2
      · simp only [if_pos hm]; exact ih (some (s, dist s, merit (dist s)))
      · simp only [if_neg hm]; exact ih (some r)

variable {par : Par P} {ρ : P → P} (hp : par.Blind σ ρ)
include hp

theorem best_named (s : Stats) (o : AttObs P) :
    (o.named σ ρ).best par (named σ s) = (o.best par s).map fun b => (b.1, b.2.1.map (named σ), b.2.2) := by
  cases o with
  | off => rfl
  | other p => exact hp.propose p s
  | gauss g =>
    simp only [AttObs.named, AttObs.best, gBest, splitPoints_named hσ]
    have := bestPoint_named hσ (gSplit (density par.dens) par.cdf g) (gSplit (density par.dens) par.cdf (g.map fun p => (nat σ p.1, p.2)))
      (fun d => par.merit s (sides d)) (fun d => par.merit (named σ s) (sides d)) (List.map fun p => (nat σ p.1, p.2))
      (gSplit_named hσ _ _ g) (fun d => by rw [sides_named hσ, hp.merit]) (splitPoints par.bins g) none
    rw [Option.map_none] at this
    rw [this, Option.map_map, Option.map_map]
    congr 1
    funext r
    simp only [Function.comp_apply, sides_named hσ]

theorem updateAll_named (obs : List (AttObs P)) (x : List ℚ) (y : Int) (hy : 0 ≤ y) (w : ℚ) :
    updateAll par (obs.map (AttObs.named σ ρ)) x (σ y) w = (updateAll par obs x y w).map (AttObs.named σ ρ) := by
  have h1 : ∀ (o : AttObs P) (v : ℚ), (o.named σ ρ).update par v (σ y) w = (o.update par v y w).named σ ρ := by
    intro o v
    cases o with
    | gauss g => simp only [AttObs.named, AttObs.update, nat_toNat hσ y hy, gUpdate_named hσ]
    | other p => simp only [AttObs.named, AttObs.update, hp.update p v y w hy]
    | off => rfl
  have h2 : ∀ obs : List (AttObs P), List.zipWith (fun o v => o.update par v (σ y) w) (obs.map (AttObs.named σ ρ)) x =
      (List.zipWith (fun o v => o.update par v y w) obs x).map (AttObs.named σ ρ) := by
    intro obs
    rw [List.zipWith_map_left, List.map_zipWith]
    congr 1
    funext o v
    exact h1 o v
  unfold updateAll
  by_cases h : obs.isEmpty = true
  · have h' : (obs.map (AttObs.named σ ρ)).isEmpty = true := by simpa using h
    rw [if_pos h, if_pos h', ← h2, hp.start]
  · have h' : ¬ (obs.map (AttObs.named σ ρ)).isEmpty = true := by simpa using h
    rw [if_neg h, if_neg h', h2]

theorem naiveBayes_named (hz : σ 0 = 0) (s : Stats) (obs : List (AttObs P)) (x : List ℚ) :
    naiveBayes par (named σ s) (obs.map (AttObs.named σ ρ)) x = named σ (naiveBayes par s obs x) := by
  have h1 : ∀ (o : AttObs P) (v : ℚ) (c : Int), (o.named σ ρ).prob par v (σ c) = o.prob par v c := by
    intro o v c
    cases o with
    | gauss g => simp only [AttObs.named, AttObs.prob, nat_toNat_zero hσ hz, Bayes.gProb, lookup_named hσ]
    | other p => exact hp.prob p v c hz
    | off => rfl
  have he : (named σ s = [] ∨ total (named σ s) = 0) ↔ (s = [] ∨ total s = 0) := by
    rw [total_named]
    simp [named]
  unfold naiveBayes
  by_cases h : s = [] ∨ total s = 0
  · rw [if_pos (he.2 h), if_pos h]
    simp [named, hz]
  · rw [if_neg fun h' => h (he.1 h'), if_neg h, total_named]
    simp only [named, List.map_map]
    apply List.map_congr_left
    intro p _
    simp only [Function.comp_apply, List.zipWith_map_left, h1]

/-- The leaf with the classes under other names. -/
def Leaf.relabel (σ : Int → Int) (ρ : P → P) (l : Leaf (List (AttObs P))) : Leaf (List (AttObs P)) :=
  { l with stats := HL.named σ l.stats, obs := l.obs.map (AttObs.named σ ρ) }

omit hσ hp in
theorem new_named (σ : Int → Int) (ρ : P → P) (par : Par P) (kind : Kind) (nbt grace : ℚ) (a : Bool) (s : Stats) :
    Leaf.relabel σ ρ (newLeaf (par.cfg kind nbt grace) a s) = newLeaf (par.cfg kind nbt grace) a (named σ s) := by
  simp [Leaf.relabel, newLeaf, Par.cfg, total_named]

theorem learn_named (kind : Kind) (hz : kind = .nba → σ 0 = 0) (nbt grace : ℚ) (l : Leaf (List (AttObs P))) (x : List ℚ) (y : Int) (hy : 0 ≤ y) (w : ℚ) :
    Leaf.relabel σ ρ (l.learn (par.cfg kind nbt grace) x y w) = (l.relabel σ ρ).learn (par.cfg kind nbt grace) x (σ y) w := by
  have ho : (if l.active = true then updateAll par l.obs x y w else l.obs).map (AttObs.named σ ρ) =
      if l.active = true then updateAll par (l.obs.map (AttObs.named σ ρ)) x (σ y) w else l.obs.map (AttObs.named σ ρ) := by
    split
    · exact (updateAll_named hσ hp l.obs x y hy w).symm
    · rfl
  have hcfg : (par.cfg kind nbt grace).update = updateAll par := rfl
  have hk : (par.cfg kind nbt grace).kind = kind := rfl
  simp only [Leaf.learn, Leaf.relabel, hcfg, hk, bump_named σ hσ.mono, ho]
  by_cases h : kind = .nba
  · have hz := hz h
    have hinj := hσ.mono.injective
    have h1 : mcRight (named σ l.stats) (σ y) = mcRight l.stats y := by
      unfold mcRight
      rw [maxKey_named]
      cases maxKey l.stats with
      | none =>
        simp only [Option.map_none]
        rw [Bool.eq_iff_iff]
        simp only [beq_iff_eq]
        constructor
        · intro e; rw [← hz] at e; exact hinj e
        · rintro rfl; exact hz
      | some k =>
        simp only [Option.map_some]
        rw [Bool.eq_iff_iff]
        simp only [beq_iff_eq, hinj.eq_iff]
    have h2 : nbRight (par.cfg kind nbt grace) (named σ l.stats) (l.obs.map (AttObs.named σ ρ)) x (σ y) =
        nbRight (par.cfg kind nbt grace) l.stats l.obs x y := by
      unfold nbRight
      have hb : (par.cfg kind nbt grace).bayes = naiveBayes par := rfl
      rw [hb, naiveBayes_named hσ hp hz, maxKey_named]
      cases maxKey (naiveBayes par l.stats l.obs x) with
      | none => rfl
      | some k =>
        rw [Bool.eq_iff_iff]
        simp [hinj.eq_iff]
    rw [h1, h2]
  · simp only [h, decide_false, Bool.and_false, Bool.false_and, Bool.false_eq_true, if_false]

theorem votes_named (hz : σ 0 = 0) (kind : Kind) (nbt grace : ℚ) (l : Leaf (List (AttObs P))) (x : List ℚ) :
    (l.relabel σ ρ).votes (par.cfg kind nbt grace) x = named σ (l.votes (par.cfg kind nbt grace) x) := by
  unfold Leaf.votes
  have hb : (par.cfg kind nbt grace).bayes = naiveBayes par := rfl
  simp only [Leaf.relabel, hb, naiveBayes_named hσ hp hz, total_named]
  split
  · cases (par.cfg kind nbt grace).kind with
    | mc => rfl
    | nb => simp only []; split <;> rfl
    | nba => simp only []; split <;> rfl
  · rfl

theorem attempt_named (k kind : Kind) (nbt grace : ℚ) (r : Row) (l : Leaf (List (AttObs P))) :
    (attempt (par.cfg kind nbt grace) (par.ev k r) l).named σ (Leaf.relabel σ ρ) =
      attempt (par.cfg kind nbt grace) (par.ev k (r.named σ)) (l.relabel σ ρ) := by
  have hnew := new_named σ ρ par kind nbt grace
  unfold attempt
  have e : ((par.ev k (r.named σ)).growth = true ∧ (l.relabel σ ρ).active = true ∧
      total (l.relabel σ ρ).stats - (l.relabel σ ρ).last ≥ (par.cfg kind nbt grace).grace) ↔
      ((par.ev k r).growth = true ∧ l.active = true ∧ total l.stats - l.last ≥ (par.cfg kind nbt grace).grace) := by
    have h1 : total (l.relabel σ ρ).stats = total l.stats := total_named σ l.stats
    rw [h1]
    rfl
  simp only [e]
  by_cases hc : (par.ev k r).growth = true ∧ l.active = true ∧ total l.stats - l.last ≥ (par.cfg kind nbt grace).grace
  · rw [if_pos hc, if_pos hc]
    have hsg : suggestions par (l.relabel σ ρ).stats (l.relabel σ ρ).obs = (suggestions par l.stats l.obs).map
        fun s => (s.1.map fun t => (t.1, t.2.1, t.2.2.map (named σ)), s.2) := by
      unfold suggestions
      rw [List.map_append]
      congr 1
      · split
        · rfl
        · have := hp.merit l.stats [l.stats]
          simp only [List.map_cons, List.map_nil] at this
          simp only [List.map_cons, List.map_nil, Option.map_none, Leaf.relabel, this]
      · simp only [Leaf.relabel, List.zipIdx_map, List.filterMap_map, List.map_filterMap]
        apply List.filterMap_congr
        intro q _
        simp only [Function.comp_apply, Prod.map, best_named hσ hp, id, Option.map_map]
        rfl
    have hms : ((suggestions par l.stats l.obs).map fun s => (s.1.map fun t => (t.1, t.2.1, t.2.2.map (named σ)), s.2)).map
        (fun s => (s.1.map fun t => t.1, s.2)) = (suggestions par l.stats l.obs).map fun s => (s.1.map fun t => t.1, s.2) := by
      rw [List.map_map]
      apply List.map_congr_left
      intro s _
      simp only [Function.comp_apply, Option.map_map]
      rfl
    have c1 : (par.ev k r).choose l = chooseSplit par k l := rfl
    have c2 : (par.ev k (r.named σ)).choose (l.relabel σ ρ) = chooseSplit par k (l.relabel σ ρ) := rfl
    rw [c1, c2]
    unfold chooseSplit
    simp only []
    rw [hsg, hms]
    have hst : (l.relabel σ ρ).stats = named σ l.stats := rfl
    rw [hst, hp.pick]
    cases par.pick l.stats ((suggestions par l.stats l.obs).map fun s => (s.1.map fun t => t.1, s.2)) with
    | keep poor =>
      have hd : ∀ obs : List (AttObs P), (disable poor obs).map (AttObs.named σ ρ) = disable poor (obs.map (AttObs.named σ ρ)) := by
        intro obs
        unfold disable
        rw [List.map_map, List.zipIdx_map, List.map_map]
        apply List.map_congr_left
        intro q _
        simp only [Function.comp_apply, Prod.map, id]
        split <;> rfl
      by_cases hm : k = .mc
      · simp only [T.named, Leaf.relabel, hm, if_true, hd, total_named]
      · simp only [T.named, Leaf.relabel, hm, if_false, id, total_named]
    | prune => simp only [T.named, hnew]
    | split k =>
      simp only [List.getElem?_map]
      cases hk : (suggestions par l.stats l.obs)[k]? with
      | none => simp only [Option.map_none, T.named, hnew]
      | some sg =>
        obtain ⟨t, m⟩ := sg
        cases t with
        | none => simp only [Option.map_some, Option.map_none, T.named, hnew]
        | some t =>
          obtain ⟨j, p, ds⟩ := t
          simp only [Option.map_some, T.named]
          rw [newKids_named σ _ _ hnew]
  · rw [if_neg hc, if_neg hc]
    rfl

theorem run_relabel (k kind : Kind) (hz : kind = .nba → σ 0 = 0) (nbt grace : ℚ) (rows : List Row) (hr : ∀ r ∈ rows, 0 ≤ r.y) :
    run (par.cfg kind nbt grace) none ((rows.map (Row.named σ)).map (par.ev k)) =
      (run (par.cfg kind nbt grace) none (rows.map (par.ev k))).map (Option.map (T.named σ (Leaf.relabel σ ρ))) := by
  refine run_named (σ := σ) (φ := Leaf.relabel σ ρ) ⟨new_named σ ρ par kind nbt grace, fun _ => rfl, fun _ => rfl⟩ none _ _ ?_
  rw [List.map_map, List.forall₂_map_left_iff, List.forall₂_map_right_iff]
  exact List.forall₂_same.2 fun r hm => ⟨rfl, rfl, fun l => learn_named hσ hp kind hz nbt grace l r.x r.y (hr r hm) r.w,
    fun l => attempt_named hσ hp k kind nbt grace r l⟩

end

/-! ### C295 -/

mutual
theorem T.named_map {O : Type} (σ : Int → Int) (φ : Leaf O → Leaf O) (φ' : Leaf Unit → Leaf Unit) (ψ : Leaf O → Leaf Unit)
    (h : ∀ l, ψ (φ l) = φ' (ψ l)) (r : T O) : (r.named σ φ).map id ψ = (r.map id ψ).named σ φ' := by
  match r with
  | .leaf l => simp only [T.named, T.map, h]
  | .split t s kids => simp only [T.named, T.map, F.named_map σ φ φ' ψ h kids]
theorem F.named_map {O : Type} (σ : Int → Int) (φ : Leaf O → Leaf O) (φ' : Leaf Unit → Leaf Unit) (ψ : Leaf O → Leaf Unit)
    (h : ∀ l, ψ (φ l) = φ' (ψ l)) (kids : F O) : (kids.named σ φ).map id ψ = (kids.map id ψ).named σ φ' := by
  match kids with
  | .nil => rfl
  | .cons j t rest => simp only [F.named, F.map, T.named_map σ φ φ' ψ h t, F.named_map σ φ φ' ψ h rest]
end

theorem grow_mc {P : Type} (par : Par P) (kind : Kind) (nbt grace : ℚ) (rows : List Row) :
    par.grow kind nbt grace rows = (run (par.cfg .mc nbt grace) none (rows.map (par.ev kind))).map (Option.map (T.map id Leaf.classes)) := by
  rw [run_plain par kind kind nbt nbt grace rows, Par.grow]
  cases run (par.cfg kind nbt grace) none (rows.map (par.ev kind)) with
  | error e => rfl
  | ok r =>
    cases r with
    | none => rfl
    | some r =>
      simp only [Except.map, Option.map_some, T.map_map]
      rfl

/-- **C295** (part): rename the classes in all training rows, keeping their order.  With every kind of leaves, training
ends with the same exception, or the tree has the same splits and the same active and inactive leaves, with the class
weights under the new names. -/
theorem C295_splits {P : Type} (par : Par P) (σ : Int → Int) (hσ : Renames σ) (ρ : P → P) (hp : par.Blind σ ρ) (kind : Kind)
    (nbThreshold grace : ℚ) (rows : List Row) (hr : ∀ r ∈ rows, 0 ≤ r.y) :
    par.grow kind nbThreshold grace (rows.map (Row.named σ)) =
      (par.grow kind nbThreshold grace rows).map (Option.map (T.named σ (Leaf.named σ))) := by
  rw [grow_mc, grow_mc, run_relabel hσ hp kind .mc (by simp) nbThreshold grace rows hr]
  cases run (par.cfg .mc nbThreshold grace) none (rows.map (par.ev kind)) with
  | error e => rfl
  | ok r =>
    cases r with
    | none => rfl
    | some r =>
      simp only [Except.map, Option.map_some]
      rw [T.named_map σ (Leaf.relabel σ ρ) (Leaf.named σ) Leaf.classes (fun _ => rfl)]

/-- **C295** (part): if the renaming also keeps 0, every row gets the same votes, under the new names. -/
theorem C295_votes {P : Type} (par : Par P) (σ : Int → Int) (hσ : Renames σ) (hz : σ 0 = 0) (ρ : P → P) (hp : par.Blind σ ρ)
    (kind : Kind) (nbThreshold grace : ℚ) (rows : List Row) (hr : ∀ r ∈ rows, 0 ≤ r.y) (x : List ℚ) :
    let cfg := par.cfg kind nbThreshold grace
    (run cfg none ((rows.map (Row.named σ)).map (par.ev kind))).bind (fun root => votesAt cfg root x) =
      (run cfg none (rows.map (par.ev kind))).bind fun root => (votesAt cfg root x).map (named σ) := by
  intro cfg
  have h := run_relabel hσ hp kind kind (fun _ => hz) nbThreshold grace rows hr
  have e : par.cfg kind nbThreshold grace = cfg := rfl
  rw [e] at h
  rw [h]
  cases run cfg none (rows.map (par.ev kind)) with
  | error e => rfl
  | ok root => exact votesAt_named x (fun l => votes_named hσ hp hz kind nbThreshold grace l x) root

/-- Votes as a trained leaf gives them: none, or not negative, for different labels within those known. -/
def Proper (classes : Option (List Int)) (votes : List (Int × ℚ)) : Prop :=
  votes = [] ∨ ∃ m, IsTop classes votes m ∧ (votes.map Prod.fst).Nodup ∧ ∀ q ∈ votes, 0 ≤ q.1 ∧ q.1 ≤ m ∧ 0 ≤ q.2

/-- The most voted label, 0 if there are no votes but 0. -/
def Answer (votes : List (Int × ℚ)) (k : Nat) : Prop :=
  ((∃ q ∈ votes, 0 < q.2) ∧ MostVoted votes k) ∨ ((∀ q ∈ votes, q.2 = 0) ∧ k = 0)

theorem argmax_zeros (l : List ℚ) (h : ∀ v ∈ l, v = 0) : Lazy.argmax l = 0 := by
  cases l with
  | nil => rfl
  | cons a l =>
    obtain ⟨v, h1, h2, h3⟩ := Lazy.argmax_spec (a :: l) (by simp)
    by_contra hne
    have hv := h v (List.mem_of_getElem? h1)
    have := h3 0 a (by omega) (by simp)
    rw [hv, h a (by simp)] at this
    exact absurd this (lt_irrefl _)

theorem assignAll_zeros (votes : List (Int × ℚ)) (n : Nat) (hv : ∀ q ∈ votes, 0 ≤ q.1 ∧ q.1 < n ∧ q.2 = 0) :
    assignAll votes (List.replicate n 0) = .ok (List.replicate n 0) := by
  induction votes with
  | nil => rfl
  | cons q votes ih =>
    obtain ⟨k, v⟩ := q
    obtain ⟨h1, h2, h3⟩ := hv (k, v) (by simp)
    simp only at h1 h2 h3
    have : assign (List.replicate n 0) k v = .ok (List.replicate n 0) := by
      have hl : k.toNat < (List.replicate n (0 : ℚ)).length := by rw [List.length_replicate]; omega
      rw [assign, if_pos h1, if_pos hl, h3]
      congr 1
      apply List.ext_getElem?
      intro i
      rw [List.getElem?_set]
      split
      · next e =>
        subst e
        simp [show k.toNat < n by omega]
      · rfl
    rw [assignAll, this]
    exact ih fun q hq => hv q (by simp [hq])

theorem answer_row (classes : Option (List Int)) (votes : List (Int × ℚ)) (h : Proper classes votes) :
    ∃ row, probaRow classes votes = .ok row ∧ ∀ extra, Answer votes (Lazy.argmax (row ++ List.replicate extra 0)) := by
  rcases h with rfl | ⟨m, h1, h2, h3⟩
  · refine ⟨[0], rfl, fun extra => .inr ⟨by simp, argmax_zeros _ ?_⟩⟩
    intro v hv
    rcases List.mem_append.1 hv with hv | hv
    · simpa using hv
    · exact (List.mem_replicate.1 hv).2
  · by_cases hpos : ∃ q ∈ votes, 0 < q.2
    · obtain ⟨row, _, _, r1, _, _⟩ := C126_predict_row_partial classes votes m h1 h2 h3 hpos 0
      refine ⟨row, r1, fun extra => .inl ⟨hpos, ?_⟩⟩
      obtain ⟨row', k, v, r1', r2, r3⟩ := C126_predict_row_partial classes votes m h1 h2 h3 hpos extra
      rw [r1, Except.ok.injEq] at r1'
      subst r1'
      rw [r2]
      exact ⟨v, r3⟩
    · have hzero : ∀ q ∈ votes, q.2 = 0 := by
        intro q hq
        rcases (h3 q hq).2.2.lt_or_eq with h | h
        · exact absurd ⟨q, hq, h⟩ hpos
        · exact h.symm
      cases votes with
      | nil =>
        refine ⟨[0], rfl, fun extra => .inr ⟨by simp, argmax_zeros _ ?_⟩⟩
        intro v hv
        rcases List.mem_append.1 hv with hv | hv
        · simpa using hv
        · exact (List.mem_replicate.1 hv).2
      | cons q l =>
        obtain ⟨k, v⟩ := q
        have hsum : (((k, v) :: l).map Prod.snd).sum = 0 := by
          apply List.sum_eq_zero
          intro w hw
          obtain ⟨q, hq, rfl⟩ := List.mem_map.1 hw
          exact hzero q hq
        have hlab : classes.getD (((k, v) :: l).map Prod.fst) = classes.getD (k :: l.map Prod.fst) := rfl
        unfold IsTop at h1
        simp only [hlab] at h1
        have hrow : probaRow classes ((k, v) :: l) = .ok (List.replicate (m + 1) 0) := by
          simp only [probaRow, hsum, ne_eq, not_true_eq_false, if_false]
          cases hc : classes.getD (k :: l.map Prod.fst) with
          | nil => rw [hc] at h1; simp at h1
          | cons c cs =>
            rw [hc] at h1
            simp only [foldl_max_top c cs m h1.1 h1.2]
            rw [if_neg (by omega), show ((m : Int) + 1).toNat = m + 1 by omega]
            exact assignAll_zeros _ _ fun q hq => ⟨(h3 q hq).1, by have := (h3 q hq).2.1; push_cast; omega, hzero q hq⟩
        refine ⟨_, hrow, fun extra => .inr ⟨hzero, argmax_zeros _ ?_⟩⟩
        intro v hv
        rcases List.mem_append.1 hv with hv | hv <;> exact (List.mem_replicate.1 hv).2

theorem answer_batch {O : Type} (cfg : Cfg O) (root : Option (T O)) (classes : Option (List Int)) (xs : List (List ℚ))
    (h : ∀ x ∈ xs, ∃ votes, votesAt cfg root x = .ok votes ∧ Proper classes votes) :
    ∃ ks, predict cfg root classes xs = .ok ks ∧ List.Forall₂ (fun x k => ∃ votes, votesAt cfg root x = .ok votes ∧ Answer votes k) xs ks := by
  obtain ⟨ps, h1, h2⟩ := collect_forall₂ (fun x => match votesAt cfg root x with
    | .error e => .error e
    | .ok v => probaRow classes v)
    (fun x row => ∀ extra, ∃ votes, votesAt cfg root x = .ok votes ∧ Answer votes (Lazy.argmax (row ++ List.replicate extra 0))) xs (by
      intro x hx
      obtain ⟨votes, g1, g2⟩ := h x hx
      obtain ⟨row, r1, r2⟩ := answer_row classes votes g2
      exact ⟨row, by simp only [g1, r1], fun extra => ⟨votes, g1, r2 extra⟩⟩)
  unfold predict proba
  generalize hc : collect _ xs = c
  have : c = .ok ps := by rw [← hc]; exact h1
  subst this
  refine ⟨_, rfl, ?_⟩
  rw [List.forall₂_map_right_iff]
  cases classes with
  | some _ => exact h2.imp fun x row hr => by simpa using hr 0
  | none =>
    simp only [pad]
    rw [List.forall₂_map_right_iff]
    exact h2.imp fun x row hr => hr _

theorem Answer.unique {votes : List (Int × ℚ)} {k k' : Nat} (h : Answer votes k) (h' : Answer votes k') : k = k' := by
  rcases h with ⟨⟨q, hq, hpos⟩, v, h1, h2, h3⟩ | ⟨h1, rfl⟩
  · rcases h' with ⟨_, v', h1', h2', h3'⟩ | ⟨h1', _⟩
    · rcases Nat.lt_trichotomy k k' with hlt | rfl | hlt
      · exact absurd (h3' _ h1 (by simpa using hlt)) (not_lt.2 (h2 _ h1'))
      · rfl
      · exact absurd (h3 _ h1' (by simpa using hlt)) (not_lt.2 (h2' _ h1))
    · exact absurd (h1' q hq) hpos.ne'
  · rcases h' with ⟨⟨q, hq, hpos⟩, _⟩ | ⟨_, rfl⟩
    · exact absurd (h1 q hq) hpos.ne'
    · rfl

section
variable {σ : Int → Int} (hσ : Renames σ)
include hσ

theorem Answer.named (hz : σ 0 = 0) {votes : List (Int × ℚ)} {k : Nat} (h : Answer votes k) : Answer (named σ votes) (nat σ k) := by
  have hmem : ∀ q ∈ HL.named σ votes, ∃ p ∈ votes, q = (σ p.1, p.2) := by
    intro q hq
    obtain ⟨p, hp, e⟩ := List.mem_map.1 hq
    exact ⟨p, hp, e.symm⟩
  rcases h with ⟨⟨q, hq, hpos⟩, v, h1, h2, h3⟩ | ⟨h1, rfl⟩
  · left
    refine ⟨⟨(σ q.1, q.2), List.mem_map.2 ⟨q, hq, rfl⟩, hpos⟩, v, List.mem_map.2 ⟨_, h1, by simp only [nat_cast hσ]⟩, ?_, ?_⟩
    · intro q hq
      obtain ⟨p, hp, rfl⟩ := hmem q hq
      exact h2 p hp
    · intro q hq hlt
      obtain ⟨p, hp, rfl⟩ := hmem q hq
      rw [nat_cast hσ] at hlt
      exact h3 p hp (hσ.mono.lt_iff_lt.1 hlt)
  · right
    refine ⟨?_, by simp [nat, hz]⟩
    intro q hq
    obtain ⟨p, hp, rfl⟩ := hmem q hq
    exact h1 p hp

theorem Proper.named {classes : Option (List Int)} {votes : List (Int × ℚ)} (h : Proper classes votes) :
    Proper (classes.map (List.map σ)) (named σ votes) := by
  rcases h with rfl | ⟨m, ⟨h1, h2⟩, h3, h4⟩
  · exact .inl rfl
  · have hl : (classes.map (List.map σ)).getD ((HL.named σ votes).map Prod.fst) = (classes.getD (votes.map Prod.fst)).map σ := by
      cases classes with
      | none => simp [HL.named, List.map_map, Function.comp_def]
      | some c => rfl
    refine .inr ⟨nat σ m, ⟨?_, ?_⟩, ?_, ?_⟩
    · rw [hl, nat_cast hσ]
      exact List.mem_map.2 ⟨_, h1, rfl⟩
    · rw [hl, nat_cast hσ]
      intro c hc
      obtain ⟨d, hd, rfl⟩ := List.mem_map.1 hc
      exact hσ.mono.monotone (h2 d hd)
    · have : (HL.named σ votes).map Prod.fst = (votes.map Prod.fst).map σ := by simp [HL.named, List.map_map, Function.comp_def]
      rw [this]
      exact h3.map hσ.mono.injective
    · intro q hq
      obtain ⟨p, hp, rfl⟩ := List.mem_map.1 hq
      obtain ⟨g1, g2, g3⟩ := h4 p hp
      refine ⟨hσ.nonneg _ g1, ?_, g3⟩
      rw [nat_cast hσ]
      exact hσ.mono.monotone g2
end

/-- **C295** (part): if the renaming also keeps 0, `predict` gives every row the new name of its class (wherever the votes
are not negative), with `classes` under the new names if it was given. -/
theorem C295_predict {P : Type} (par : Par P) (σ : Int → Int) (hσ : Renames σ) (hz : σ 0 = 0) (ρ : P → P) (hp : par.Blind σ ρ)
    (kind : Kind) (nbThreshold grace : ℚ) (rows : List Row) (hr : ∀ r ∈ rows, 0 ≤ r.y) (classes : Option (List Int)) (xs : List (List ℚ)) :
    let cfg := par.cfg kind nbThreshold grace
    ∀ root, run cfg none (rows.map (par.ev kind)) = .ok root →
      (∀ x ∈ xs, ∃ votes, votesAt cfg root x = .ok votes ∧ Proper classes votes) →
      ∃ root' ks, run cfg none ((rows.map (Row.named σ)).map (par.ev kind)) = .ok root' ∧
        predict cfg root classes xs = .ok ks ∧
        predict cfg root' (classes.map (List.map σ)) xs = .ok (ks.map fun k : Nat => (σ k).toNat) := by
  intro cfg root hroot hv
  have h := run_relabel hσ hp kind kind (fun _ => hz) nbThreshold grace rows hr
  have e : par.cfg kind nbThreshold grace = cfg := rfl
  rw [e, hroot] at h
  have hvn : ∀ x, votesAt cfg (root.map (T.named σ (Leaf.relabel σ ρ))) x = (votesAt cfg root x).map (named σ) :=
    fun x => votesAt_named x (fun l => votes_named hσ hp hz kind nbThreshold grace l x) root
  obtain ⟨ks, k1, k2⟩ := answer_batch cfg root classes xs hv
  obtain ⟨ks', k1', k2'⟩ := answer_batch cfg (root.map (T.named σ (Leaf.relabel σ ρ))) (classes.map (List.map σ)) xs (by
    intro x hx
    obtain ⟨votes, g1, g2⟩ := hv x hx
    exact ⟨named σ votes, by rw [hvn, g1]; rfl, g2.named hσ⟩)
  refine ⟨_, ks, h, k1, ?_⟩
  rw [k1']
  congr 1
  clear k1 k1' hv h hroot
  induction k2 generalizing ks' with
  | nil => cases k2'; rfl
  | @cons x k xs ks hk _ ih =>
    cases k2' with
    | @cons _ k' _ ks'' hk' hrest =>
      rw [List.map_cons, ih ks'' hrest]
      congr 1
      obtain ⟨votes, g1, g2⟩ := hk
      obtain ⟨votes', g1', g2'⟩ := hk'
      rw [hvn, g1] at g1'
      cases g1'
      exact g2'.unique (g2.named hσ hz)

/-! ### The criteria -/

/-- A distribution with its classes under other names. -/
def renamed (f : Nat → Nat) (d : Criteria.Dist) : Criteria.Dist := d.map fun p => (f p.1, p.2)

/-- **C295** (part): information gain and its range, and Gini, do not depend on the names of the classes. -/
theorem C295_criteria (f : Nat → Nat) (frac : ℝ) (pre : Criteria.Dist) (post : List Criteria.Dist) :
    infoGain frac (renamed f pre) (post.map (renamed f)) = infoGain frac pre post ∧
      logRange (renamed f pre) = logRange pre ∧ Criteria.gini (post.map (renamed f)) = Criteria.gini post := by
  have hv : ∀ d : Criteria.Dist, (renamed f d).map Prod.snd = d.map Prod.snd := fun d => by
    simp [renamed, List.map_map, Function.comp_def]
  have hw : ∀ d : Criteria.Dist, weight (renamed f d) = weight d := fun d => by rw [weight, weight, hv]
  have he : ∀ d : Criteria.Dist, entropyDict (renamed f d) = entropyDict d := fun d => by simp only [entropyDict, hv]
  have hws : (post.map (renamed f)).map weight = post.map weight := by
    rw [List.map_map]; exact List.map_congr_left fun d _ => hw d
  refine ⟨?_, ?_, ?_⟩
  · have h1 : numGreater (post.map (renamed f)) frac = numGreater post frac := by simp only [numGreater, hws]
    have h2 : entropyList (post.map (renamed f)) = entropyList post := by
      simp only [entropyList, hws]
      rw [List.map_map]
      congr 2
      exact List.map_congr_left fun d _ => by simp only [Function.comp_apply, hw, he]
    simp only [infoGain, h1, h2, he]
  · simp [logRange, renamed]
  · have hg : ∀ (d : Criteria.Dist) (w : ℝ), giniOf (renamed f d) w = giniOf d w := fun d w => by
      simp only [giniOf, renamed, List.foldl_map]
    have hn : post.map (renamed f) ≠ [] ↔ post ≠ [] := by simp
    simp only [Criteria.gini, hws, hn]
    have : (post.map (renamed f)).map (fun d => weight d / (post.map weight).sum * giniOf d (weight d)) =
        post.map fun d => weight d / (post.map weight).sum * giniOf d (weight d) := by
      rw [List.map_map]
      exact List.map_congr_left fun d _ => by simp only [Function.comp_apply, hw, hg]
    rw [this]

/-- **C295** (part): the Hellinger criterion looks for the labels 0 and 1.  Two branches that separate class 0 from class 1
have merit √2; give class 1 any other name, and no split has a merit other than 0 or minus infinity. -/
theorem C295_hellinger (frac a b : ℝ) (ha : 0 < a) (hb : 0 < b) (h0 : 0 ≤ frac) (h1 : frac < a / (a + b)) (h2 : frac < b / (a + b)) :
    hellinger frac [(0, a), (1, 0)] [(0, 0), (1, b)] = .ok ((Real.sqrt 2 : ℝ) : WithBot ℝ) ∧
      ∀ f : Nat → Nat, (∀ c, f c ≠ 1) → ∀ left right m, hellinger frac (renamed f left) (renamed f right) = .ok m → m = ⊥ ∨ m = 0 := by
  refine ⟨(Criteria.C94_hellinger_range_violated frac a b ha hb h0 h1 h2).1, ?_⟩
  intro f hf left right m hm
  have hl : ∀ d : Criteria.Dist, (renamed f d).lookup 1 = none := by
    intro d
    induction d with
    | nil => rfl
    | cons p d ih =>
      have : (1 == f p.1) = false := by simpa using (hf p.1).symm
      simp only [renamed, List.map_cons, List.lookup_cons, this]
      exact ih
  have h3 : hellingerOf (renamed f left) (renamed f right) = .ok 0 := by
    simp only [hellingerOf, hl]
  unfold hellinger at hm
  cases hn : Criteria.numGreaterH [renamed f left, renamed f right] frac with
  | error e => rw [hn] at hm; cases hm
  | ok n =>
    rw [hn] at hm
    simp only [bind, Except.bind, h3, Except.map] at hm
    split at hm
    · cases hm; exact .inl rfl
    · cases hm; exact .inr rfl

/-! ### Nominal attributes -/

section
variable {K V W : Type} [LinearOrder K]

theorem alter_values (g : V → W) (f : Option V → V) (f' : Option W → W) (h : ∀ o, f' (o.map g) = g (f o)) (d : SDict K V) (k : K) :
    SDict.alter f' (d.map fun p => (p.1, g p.2)) k = (SDict.alter f d k).map fun p => (p.1, g p.2) := by
  induction d with
  | nil => simp only [List.map_nil, SDict.alter, List.map_cons, ← h]; rfl
  | cons a d ih =>
    obtain ⟨k', v⟩ := a
    simp only [List.map_cons, SDict.alter]
    split
    · simp only [List.map_cons, ← h]; rfl
    · split
      · simp only [List.map_cons, ← h]; rfl
      · rw [List.map_cons, ← ih]

end

/-- The nominal observer with the classes under other names. -/
def nomNamed (σ : Int → Int) (d : NomObs) : NomObs := d.map fun p => (nat σ p.1, p.2)

section
variable {σ : Int → Int} (hσ : Renames σ)
include hσ

theorem nomUpdate_named (d : NomObs) (v : ℚ) (c : Nat) (w : ℚ) :
    nomUpdate (nomNamed σ d) (some v) (nat σ c) w = nomNamed σ (nomUpdate d (some v) c w) :=
  alter_named (nat σ) (nat_mono hσ) _ d c

theorem get?_named {V : Type} (d : SDict Nat V) (c : Nat) : SDict.get? (d.map fun p => (nat σ p.1, p.2)) (nat σ c) = SDict.get? d c := by
  induction d with
  | nil => rfl
  | cons a d ih => simp only [List.map_cons, SDict.get?, (nat_mono hσ).injective.eq_iff, ih]

theorem nomProb_named (d : NomObs) (v : ℚ) (c : Nat) : nomProb (nomNamed σ d) v (nat σ c) = nomProb d v c := by
  simp only [nomProb, nomNamed, get?_named hσ]

omit hσ in
theorem attValues_named (d : NomObs) : attValues (nomNamed σ d) = attValues d := by
  simp only [attValues, nomNamed, List.foldl_map]

theorem nomMultiway_named (d : NomObs) : nomMultiway (nomNamed σ d) = (nomMultiway d).map fun e => e.map fun p => (nat σ p.1, p.2) := by
  unfold nomMultiway nomNamed
  have hb : ∀ (res : SDict ℚ (SDict Nat ℚ)) (j : ℚ) (i : Nat) (v : ℚ),
      bump2 (res.map fun r => (r.1, r.2.map fun p => (nat σ p.1, p.2))) j (nat σ i) v =
        (bump2 res j i v).map fun r => (r.1, r.2.map fun p => (nat σ p.1, p.2)) := by
    intro res j i v
    refine alter_values (fun e : SDict Nat ℚ => e.map fun p => (nat σ p.1, p.2)) (fun o => Trees.bump (o.getD []) i v)
      (fun o => Trees.bump (o.getD []) (nat σ i) v) ?_ res j
    intro o
    cases o with
    | none => rfl
    | some e => exact alter_named (nat σ) (nat_mono hσ) _ e i
  have hi : ∀ (i : Nat) (e : SDict ℚ ℚ) (res : SDict ℚ (SDict Nat ℚ)),
      e.foldl (fun res q => bump2 res q.1 (nat σ i) q.2) (res.map fun r => (r.1, r.2.map fun p => (nat σ p.1, p.2))) =
        (e.foldl (fun res q => bump2 res q.1 i q.2) res).map fun r => (r.1, r.2.map fun p => (nat σ p.1, p.2)) := by
    intro i e
    induction e with
    | nil => intro res; rfl
    | cons q e ih => intro res; rw [List.foldl_cons, List.foldl_cons, hb, ih]
  have ho : ∀ (d : NomObs) (res : SDict ℚ (SDict Nat ℚ)),
      (d.map fun p => (nat σ p.1, p.2)).foldl (fun res p => p.2.foldl (fun res q => bump2 res q.1 p.1 q.2) res)
          (res.map fun r => (r.1, r.2.map fun p => (nat σ p.1, p.2))) =
        (d.foldl (fun res p => p.2.foldl (fun res q => bump2 res q.1 p.1 q.2) res) res).map fun r => (r.1, r.2.map fun p => (nat σ p.1, p.2)) := by
    intro d
    induction d with
    | nil => intro res; rfl
    | cons p d ih => intro res; rw [List.map_cons, List.foldl_cons, List.foldl_cons, hi, ih]
  have := ho d []
  rw [List.map_nil] at this
  rw [this, List.map_map, List.map_map]
  rfl

theorem nomBinary_named (d : NomObs) (v : ℚ) : nomBinary (nomNamed σ d) v =
    ((nomBinary d v).1.map fun p => (nat σ p.1, p.2), (nomBinary d v).2.map fun p => (nat σ p.1, p.2)) := by
  unfold nomBinary nomNamed
  let μ : SDict Nat ℚ × SDict Nat ℚ → SDict Nat ℚ × SDict Nat ℚ :=
    fun r => (r.1.map fun p => (nat σ p.1, p.2), r.2.map fun p => (nat σ p.1, p.2))
  have hb : ∀ (e : SDict Nat ℚ) (i : Nat) (w : ℚ), Trees.bump (e.map fun p => (nat σ p.1, p.2)) (nat σ i) w =
      (Trees.bump e i w).map fun p => (nat σ p.1, p.2) := fun e i w => alter_named (nat σ) (nat_mono hσ) _ e i
  have hi : ∀ (i : Nat) (e : SDict ℚ ℚ) (res : SDict Nat ℚ × SDict Nat ℚ),
      e.foldl (fun res q => if q.1 = v then (Trees.bump res.1 (nat σ i) q.2, res.2) else (res.1, Trees.bump res.2 (nat σ i) q.2)) (μ res) =
        μ (e.foldl (fun res q => if q.1 = v then (Trees.bump res.1 i q.2, res.2) else (res.1, Trees.bump res.2 i q.2)) res) := by
    intro i e
    induction e with
    | nil => intro res; rfl
    | cons q e ih =>
      intro res
      rw [List.foldl_cons, List.foldl_cons, ← ih]
      congr 1
      by_cases h : q.1 = v
      · simp only [if_pos h, μ, hb]
      · simp only [if_neg h, μ, hb]
  have ho : ∀ (d : NomObs) (res : SDict Nat ℚ × SDict Nat ℚ),
      (d.map fun p => (nat σ p.1, p.2)).foldl (fun res p => p.2.foldl (fun res q =>
          if q.1 = v then (Trees.bump res.1 p.1 q.2, res.2) else (res.1, Trees.bump res.2 p.1 q.2)) res) (μ res) =
        μ (d.foldl (fun res p => p.2.foldl (fun res q =>
          if q.1 = v then (Trees.bump res.1 p.1 q.2, res.2) else (res.1, Trees.bump res.2 p.1 q.2)) res) res) := by
    intro d
    induction d with
    | nil => intro res; rfl
    | cons p d ih => intro res; rw [List.map_cons, List.foldl_cons, List.foldl_cons, hi, ih]
  exact ho d ([], [])

end

/-- A suggestion with the classes under other names. -/
def NomSugg.named (σ : Int → Int) : NomSugg → NomSugg
  | .multiway vs ds => .multiway vs (ds.map fun e => e.map fun p => (nat σ p.1, p.2))
  | .binary v ds => .binary v (ds.1.map fun p => (nat σ p.1, p.2), ds.2.map fun p => (nat σ p.1, p.2))

section
variable {σ : Int → Int} (hσ : Renames σ)
include hσ

theorem toStats_named (e : SDict Nat ℚ) : toStats (e.map fun p => (nat σ p.1, p.2)) = named σ (toStats e) := by
  simp only [toStats, HL.named, List.map_map]
  apply List.map_congr_left
  intro p _
  simp only [Function.comp_apply, nat_cast hσ]

theorem nomDists_named (s : NomSugg) : nomDists (NomSugg.named σ s) = (nomDists s).map (named σ) := by
  cases s with
  | multiway vs ds =>
    simp only [NomSugg.named, nomDists, List.map_map]
    apply List.map_congr_left
    intro e _
    exact toStats_named hσ e
  | binary v ds => simp only [NomSugg.named, nomDists, List.map_cons, List.map_nil, toStats_named hσ]

theorem nomBest_named (merit merit' : NomSugg → ℚ) (hm : ∀ s, merit' (NomSugg.named σ s) = merit s) (d : NomObs) (b : Bool) :
    nomBest merit' (nomNamed σ d) b = (nomBest merit d b).map (NomSugg.named σ) := by
  have hc : nomCandidates (nomNamed σ d) b = (nomCandidates d b).map (NomSugg.named σ) := by
    unfold nomCandidates
    rw [List.map_append, attValues_named, List.map_map]
    congr 1
    · split
      · rfl
      · simp only [List.map_cons, List.map_nil, NomSugg.named, nomMultiway_named hσ]
    · apply List.map_congr_left
      intro v _
      simp only [Function.comp_apply, NomSugg.named, nomBinary_named hσ]
  unfold nomBest
  rw [hc]
  have : ∀ (l : List NomSugg) (o : Option NomSugg), (l.map (NomSugg.named σ)).foldl (keepBest merit') (o.map (NomSugg.named σ)) =
      (l.foldl (keepBest merit) o).map (NomSugg.named σ) := by
    intro l
    induction l with
    | nil => intro o; rfl
    | cons c l ih =>
      intro o
      rw [List.map_cons, List.foldl_cons, List.foldl_cons, ← ih]
      congr 1
      cases o with
      | none => rfl
      | some s =>
        simp only [Option.map_some, keepBest, hm]
        split <;> rfl
  exact this _ none

end

/-- A tree with numeric attributes (Gaussian observers) and nominal ones, any criterion `m` and the split decision of
`Trees/Kinds.lean`; `nominal` says which attributes are nominal. -/
def mixedPar (nominal : List Bool) (bins : Nat) (dens cum : ℚ → ℚ → ℚ) (m : Stats → List Stats → ℚ) (binaryOnly noPreprune removePoor : Bool)
    (bound : Stats → ℚ) (tie : ℚ) : Par NomObs where
  start := nominal.map fun b => if b then .other [] else .gauss []
  bins := bins
  dens := dens
  cum := cum
  merit := fun s ds => (m s ds : ℚ)
  update := fun d v y w => nomUpdate d (some v) y.toNat w
  propose := fun d s => (nomBest (fun g => m s (nomDists g)) d binaryOnly).map fun g => (nomTest g, nomDists g, ((m s (nomDists g) : ℚ) : WithBot ℚ))
  prob := fun d v c => nomProb d v c.toNat
  noPreprune := noPreprune
  pick := decideSplit removePoor bound tie

/-- **C295** (part): the observers and the split decision of the code treat labels as names, if criterion and bound do. -/
theorem C295_observers (σ : Int → Int) (hσ : Renames σ) (nominal : List Bool) (bins : Nat) (dens cum : ℚ → ℚ → ℚ) (m : Stats → List Stats → ℚ)
    (hm : ∀ s ds, m (named σ s) (ds.map (named σ)) = m s ds) (binaryOnly noPreprune removePoor : Bool) (bound : Stats → ℚ)
    (hb : ∀ s, bound (named σ s) = bound s) (tie : ℚ) :
    (mixedPar nominal bins dens cum m binaryOnly noPreprune removePoor bound tie).Blind σ (nomNamed σ) where
  merit := fun s ds => by simp only [mixedPar, hm]
  pick := by
    intro s l
    have hp : isPure (named σ s) = isPure s := by
      unfold isPure named
      rw [List.filter_map, List.length_map]
      rfl
    simp only [mixedPar, decideSplit, hp, hb]
  start := by
    simp only [mixedPar, List.map_map]
    apply List.map_congr_left
    intro b _
    cases b <;> rfl
  update := by
    intro p v y w hy
    simp only [mixedPar, nat_toNat hσ y hy, nomUpdate_named hσ]
  propose := by
    intro p s
    simp only [mixedPar]
    rw [nomBest_named hσ (fun g => m s (nomDists g)) (fun g => m (named σ s) (nomDists g))
      (fun g => by rw [nomDists_named hσ, hm]), Option.map_map, Option.map_map]
    congr 1
    funext g
    simp only [Function.comp_apply, nomDists_named hσ, hm]
    cases g <;> rfl
  prob := by
    intro p v c hz
    simp only [mixedPar, nat_toNat_zero hσ hz, nomProb_named hσ]

/-! ### Label 0 -/

/-- One row of class `a` and one of class `b`; no split is attempted. -/
def twoRows (a b : Nat) : List Row := [⟨[5], a, 1, false, []⟩, ⟨[7], b, 1, false, []⟩]

/-- **C295** (part): a renaming that does not keep 0 changes what is predicted.  Where no class gets a vote, as for the value
6 after the values 5 and 7 here, naive Bayes leaves answer 0: the first class if the classes are called 0 and 1, no class
at all if they are called `a` and `b`, `0 < a < b`. -/
theorem C295_zero {P : Type} (par : Par P) (hst : par.start = [.gauss []]) (kind : Kind) (hk : kind ≠ .mc) (grace : ℚ) (a b : Nat) (h : a < b) :
    ∃ root, run (par.cfg kind 0 grace) none ((twoRows a b).map (par.ev kind)) = .ok root ∧
      predict (par.cfg kind 0 grace) root none [[6]] = .ok [0] := by
  have hrun : run (par.cfg kind 0 grace) none ((twoRows a b).map (par.ev kind)) =
      run (par.cfg kind 0 grace) (some (.leaf (newLeaf (par.cfg kind 0 grace) true []))) ((twoRows a b).map (par.ev kind)) := rfl
  rw [hrun, run_leaf par kind _ _ (by simp [twoRows])]
  refine ⟨_, rfl, ?_⟩
  have i1 : ¬ (b : Int) = a := by omega
  have i2 : ¬ (b : Int) < a := by omega
  have n1 : ¬ b = a := by omega
  have n2 : ¬ b < a := by omega
  set L := (twoRows a b).foldl (fun l r => l.learn (par.cfg kind 0 grace) r.x r.y r.w) (newLeaf (par.cfg kind 0 grace) true []) with hL
  have hobs : L.obs = [.gauss [(a, ⟨⟨1, 5, 0⟩, 5, 5⟩), (b, ⟨⟨1, 7, 0⟩, 7, 7⟩)]] := by
    simp [hL, twoRows, Leaf.learn, newLeaf, Par.cfg, updateAll, hst, AttObs.update, gUpdate, Est.add, n1, n2]
  have hstats : L.stats = [((a : Int), 1), ((b : Int), 1)] := by
    simp [hL, twoRows, Leaf.learn, newLeaf, Par.cfg, bump, SDict.alter, n1, n2]
  have hact : L.active = true := by simp [hL, twoRows, Leaf.learn, newLeaf, Par.cfg]
  have hcnt : kind = .nba → ¬ L.mc > L.nb := by
    rintro rfl
    have j1 : ¬ (a : Int) = b := by omega
    simp [hL, twoRows, Leaf.learn, newLeaf, Par.cfg, bump, SDict.alter, updateAll, hst, AttObs.update, gUpdate, Est.add, mcRight, nbRight,
      maxKey, naiveBayes, total, AttObs.prob, Bayes.gProb, density, Est.variance, List.lookup, j1]
    by_cases ha : a = 0
    · subst ha; simp
    · have h1 : ¬ (0 : Int) = a := by omega
      rw [if_neg ha, if_neg h1]
  have hnb : naiveBayes par L.stats L.obs [6] = [((a : Int), 0), ((b : Int), 0)] := by
    rw [hstats, hobs]
    have e : (b == a) = false := by simpa using n1
    simp [naiveBayes, total, AttObs.prob, Bayes.gProb, density, Est.variance, List.lookup, e]
  have hvotes : L.votes (par.cfg kind 0 grace) [6] = [((a : Int), 0), ((b : Int), 0)] := by
    rw [Leaf.votes, hact, if_pos rfl]
    cases kind with
    | mc => exact absurd rfl hk
    | nb =>
      have h2 : total L.stats ≥ (0 : ℚ) := by rw [hstats]; simp [total]
      simp only [Par.cfg, h2, if_true]
      exact hnb
    | nba =>
      have := hcnt rfl
      simp only [Par.cfg, this, if_false]
      exact hnb
  have hvat : votesAt (par.cfg kind 0 grace) (some (.leaf L)) [6] = .ok [((a : Int), 0), ((b : Int), 0)] := by
    simp [votesAt, T.filter, T.get, hvotes]
  obtain ⟨ks, k1, k2⟩ := answer_batch (par.cfg kind 0 grace) (some (.leaf L)) none [[6]] (by
    intro x hx
    rw [List.mem_singleton] at hx
    subst hx
    refine ⟨_, hvat, .inr ⟨b, ⟨by simp, ?_⟩, ?_, ?_⟩⟩
    · intro c hc
      simp at hc
      omega
    · simp; omega
    · intro q hq
      simp at hq
      rcases hq with rfl | rfl <;> simp
      omega)
  rw [k1]
  congr 1
  cases k2 with
  | cons hk hn =>
    cases hn
    obtain ⟨votes, v1, v2⟩ := hk
    rw [hvat] at v1
    cases v1
    rcases v2 with ⟨⟨q, hq, hpos⟩, _⟩ | ⟨_, rfl⟩
    · simp at hq
      rcases hq with rfl | rfl <;> simp at hpos
    · rfl

/-! ### Examples -/

/-- Class 1 becomes 4, class 2 becomes 5 and so on. -/
def gap (c : Int) : Int := if 0 < c then c + 3 else c

theorem gap_renames : Renames gap := by
  constructor
  · intro a b h
    unfold gap
    split <;> split <;> omega
  · intro c h
    unfold gap
    split <;> omega

/-- `gap` keeps 0; Gini does not depend on the names; a bound that depends on the total weight does not either. -/
example : gap 0 = 0 ∧ (∀ ds : List Stats, gini (ds.map (named gap)) = gini ds) ∧ ∀ s, bound8 (named gap s) = bound8 s := by
  refine ⟨rfl, fun ds => ?_, fun s => by simp only [bound8, total_named]⟩
  unfold gini
  have h1 : (ds.map (named gap)).map total = ds.map total := by
    rw [List.map_map]; exact List.map_congr_left fun d _ => total_named gap d
  rw [h1, List.map_map]
  congr 2
  apply List.map_congr_left
  intro d _
  have ht : total (d.map fun p => (gap p.1, p.2)) = total d := total_named gap d
  simp only [Function.comp_apply, named, List.foldl_map, ht]

/-- Two classes told apart by the first (nominal) attribute. -/
def fourRows : List Row := [⟨[0, 1], 0, 4, true, []⟩, ⟨[0, 2], 0, 4, true, []⟩, ⟨[1, 1], 1, 4, true, []⟩, ⟨[1, 2], 1, 4, true, []⟩]

/-- A tree that splits; the same rows with class 1 called 4. -/
example : let par := mixedPar [true, false] 4 Bayes.dens0 cum0 (fun _ ds => gini ds) false true false bound8 (1 / 100)
    let cfg := par.cfg .nba 0 16
    rootAtt (par.grow .nba 0 16 fourRows) = some 0 ∧
      ((run cfg none (fourRows.map (par.ev .nba))).toOption.map fun root =>
        (predict cfg root none [[0, 1], [1, 1]]).toOption) = some (some [0, 1]) ∧
      ((run cfg none ((fourRows.map (Row.named gap)).map (par.ev .nba))).toOption.map fun root =>
        (predict cfg root none [[0, 1], [1, 1]]).toOption) = some (some [0, 4]) := by
  decide +kernel

end Verif.Trees.HL
