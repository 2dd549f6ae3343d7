import Verif.Trees.Predict

/-!
Two Hoeffding trees (`Trees/Learn.lean`) that see the same instances in two presentations: if every leaf of the one
behaves as the corresponding leaf of the other, so do the trees.  Used by `Trees/Units.lean`.
-/

namespace Verif.Trees.HL

open Verif.Trees

variable {O O' : Type}

mutual
/-- The same tree with other tests and other leaves. -/
def T.map (τ : Test → Test) (φ : Leaf O → Leaf O') : T O → T O'
  | .leaf l => .leaf (φ l)
  | .split t s kids => .split (τ t) s (kids.map τ φ)
/-- See `T.map`. -/
def F.map (τ : Test → Test) (φ : Leaf O → Leaf O') : F O → F O'
  | .nil => .nil
  | .cons j t rest => .cons j (t.map τ φ) (rest.map τ φ)
end

mutual
/-- Every leaf has the property. -/
def T.All (I : Leaf O → Prop) : T O → Prop
  | .leaf l => I l
  | .split _ _ kids => kids.All I
/-- See `T.All`. -/
def F.All (I : Leaf O → Prop) : F O → Prop
  | .nil => True
  | .cons _ t rest => t.All I ∧ rest.All I
end

section
variable (I : Leaf O → Prop)

mutual
theorem T.all_get (r : T O) (h : r.All I) (p : Path) (u : T O) (hu : r.get p = some u) : u.All I := by
  match r, p with
  | r, [] =>
    rw [T.get] at hu
    cases hu; exact h
  | .leaf l, _ :: _ => simp [T.get] at hu
  | .split t s kids, i :: p => exact F.all_get kids h i p u hu
theorem F.all_get (kids : F O) (h : kids.All I) (i : Nat) (p : Path) (u : T O) (hu : kids.get i p = some u) : u.All I := by
  match kids with
  | .nil => simp [F.get] at hu
  | .cons j t rest =>
    rw [F.get] at hu
    by_cases e : i = j
    · rw [if_pos e] at hu; exact T.all_get t h.1 p u hu
    · rw [if_neg e] at hu; exact F.all_get rest h.2 i p u hu
end

mutual
theorem T.all_modify (f : T O → T O) (hf : ∀ u : T O, u.All I → (f u).All I) (r : T O) (h : r.All I) (p : Path) :
    (r.modify f p).All I := by
  match r, p with
  | .leaf l, [] => exact hf _ h
  | .split t s kids, [] => exact hf _ h
  | .leaf l, _ :: _ => exact h
  | .split t s kids, i :: p => exact F.all_modify f hf kids h i p
theorem F.all_modify (f : T O → T O) (hf : ∀ u : T O, u.All I → (f u).All I) (kids : F O) (h : kids.All I) (i : Nat) (p : Path) :
    (kids.modify f i p).All I := by
  match kids with
  | .nil => exact h
  | .cons j t rest =>
    rw [F.modify]
    by_cases e : i = j
    · rw [if_pos e]; exact ⟨T.all_modify f hf t h.1 p, h.2⟩
    · rw [if_neg e]; exact ⟨h.1, F.all_modify f hf rest h.2 i p⟩
end

theorem F.all_snoc (kids : F O) (h : kids.All I) (i : Nat) (t : T O) (ht : t.All I) : (kids.snoc i t).All I := by
  match kids with
  | .nil => exact ⟨ht, trivial⟩
  | .cons j u rest => exact ⟨h.1, F.all_snoc rest h.2 i t ht⟩

theorem newKids_all (cfg : Cfg O) (hnew : ∀ a s, I (newLeaf cfg a s)) (ds : List Stats) (i : Nat) : (newKids cfg i ds).All I := by
  induction ds generalizing i with
  | nil => trivial
  | cons d ds ih => exact ⟨hnew _ _, ih _⟩

theorem manage_all (cfg : Cfg O) (hnew : ∀ a s, I (newLeaf cfg a s)) (m : List (Path × Bool)) (r : T O) (h : r.All I) :
    (manage cfg r m).All I := by
  unfold manage
  induction m generalizing r with
  | nil => exact h
  | cons q m ih =>
    refine ih _ (T.all_modify I _ ?_ r h _)
    intro u hu
    cases u with
    | split t s kids => exact hu
    | leaf l =>
      simp only [setActive]
      split
      · exact hu
      · exact hnew _ _

/-- An invariant of the leaves. -/
structure Keeps (cfg : Cfg O) (e : Ev O) : Prop where
  learn : ∀ l, I l → I (l.learn cfg e.x e.y e.w)
  keep : ∀ l, I l → ∀ f, e.choose l = .keep f → I { l with obs := f l.obs, last := total l.stats }

theorem attempt_all (cfg : Cfg O) (hnew : ∀ a s, I (newLeaf cfg a s)) (e : Ev O) (he : Keeps I cfg e) (l : Leaf O) (hl : I l) :
    (attempt cfg e l).All I := by
  unfold attempt
  split
  · cases hc : e.choose l with
    | keep f => exact he.keep l hl f hc
    | prune => exact hnew _ _
    | split t ds => exact newKids_all I cfg hnew ds 0
  · exact hl

theorem step_all (cfg : Cfg O) (hnew : ∀ a s, I (newLeaf cfg a s)) (root : Option (T O)) (hroot : ∀ r, root = some r → r.All I)
    (e : Ev O) (he : Keeps I cfg e) (r' : T O) (h : step cfg root e = .ok r') : r'.All I := by
  have hr : (root.getD (.leaf (newLeaf cfg true []))).All I := by
    cases root with
    | none => exact hnew _ _
    | some r => exact hroot r rfl
  have hn := he.learn _ (hnew true [])
  have ha := attempt_all I cfg hnew e he _ hn
  unfold step at h
  simp only [] at h
  generalize root.getD (.leaf (newLeaf cfg true [])) = r at hr h
  cases hf : r.filter e.x [] with
  | error err => rw [hf] at h; cases h
  | ok f =>
    rw [hf] at h
    cases f with
    | missing p b =>
      have key : (manage cfg (r.modify (fun n => match n with
            | .split t s kids => .split t s (kids.snoc b (attempt cfg e ((newLeaf cfg true []).learn cfg e.x e.y e.w)))
            | n => n) p) e.memory).All I := by
        refine manage_all I cfg hnew _ _ (T.all_modify I _ ?_ r hr p)
        intro u hu
        cases u with
        | leaf l => exact hu
        | split t s kids => exact F.all_snoc I kids hu b _ ha
      simp only [] at h
      split at h
      · cases h; exact key
      · split at h
        · cases h
        · cases h; exact key
    | node p =>
      simp only [] at h
      cases hg : r.get p with
      | none => rw [hg] at h; cases h; exact manage_all I cfg hnew _ _ hr
      | some u =>
        have hu := T.all_get I r hr p u hg
        rw [hg] at h
        cases u with
        | leaf l =>
          cases h
          exact manage_all I cfg hnew _ _ (T.all_modify I _ (fun _ _ => attempt_all I cfg hnew e he _ (he.learn l hu)) r hr p)
        | split t s kids =>
          cases t with
          | num t => cases h; exact manage_all I cfg hnew _ _ hr
          | nom t => cases h; exact manage_all I cfg hnew _ _ hr
          | multi m =>
            simp only [] at h
            cases hx : xget e.x m.att with
            | error err => rw [hx] at h; cases h
            | ok v =>
              rw [hx] at h
              simp only [] at h
              cases hb : m.addBranch v with
              | error err => rw [hb] at h; cases h
              | ok q =>
                rw [hb] at h
                cases h
                refine manage_all I cfg hnew _ _ (T.all_modify I _ ?_ r hr p)
                intro u _
                exact F.all_snoc I kids hu _ (.leaf _) hn
end

section
variable (τ : Test → Test) (φ : Leaf O → Leaf O')

mutual
theorem T.filter_map (x x' : List ℚ) (hb : ∀ t : Test, (τ t).branch x' = t.branch x) (r : T O) (pre : Path) :
    (r.map τ φ).filter x' pre = r.filter x pre := by
  match r with
  | .leaf l => rfl
  | .split t s kids =>
    rw [T.map, T.filter, T.filter, hb]
    cases t.branch x with
    | error e => rfl
    | ok b => simp only [F.filter_map x x' hb kids]
theorem F.filter_map (x x' : List ℚ) (hb : ∀ t : Test, (τ t).branch x' = t.branch x) (kids : F O) (b : Nat) (pre : Path) :
    (kids.map τ φ).filter x' b pre = kids.filter x b pre := by
  match kids with
  | .nil => rfl
  | .cons j t rest =>
    rw [F.map, F.filter, F.filter, T.filter_map x x' hb t, F.filter_map x x' hb rest]
end

mutual
theorem T.get_map (r : T O) (p : Path) : (r.map τ φ).get p = (r.get p).map (T.map τ φ) := by
  match r, p with
  | .leaf l, [] => rfl
  | .split t s kids, [] => rfl
  | .leaf l, _ :: _ => rfl
  | .split t s kids, i :: p => simp only [T.map, T.get, F.get_map kids]
theorem F.get_map (kids : F O) (i : Nat) (p : Path) : (kids.map τ φ).get i p = (kids.get i p).map (T.map τ φ) := by
  match kids with
  | .nil => rfl
  | .cons j t rest =>
    simp only [F.map, F.get]
    by_cases e : i = j
    · simp only [if_pos e]; exact T.get_map t p
    · simp only [if_neg e]; exact F.get_map rest i p
end

mutual
theorem T.modify_map (f : T O → T O) (f' : T O' → T O') (r : T O) (p : Path)
    (h : ∀ u, r.get p = some u → f' (u.map τ φ) = (f u).map τ φ) :
    (r.map τ φ).modify f' p = (r.modify f p).map τ φ := by
  match r, p with
  | .leaf l, [] => exact h _ rfl
  | .split t s kids, [] => exact h _ rfl
  | .leaf l, _ :: _ => rfl
  | .split t s kids, i :: p =>
    simp only [T.get] at h
    simp only [T.map, T.modify, F.modify_map f f' kids i p h]
theorem F.modify_map (f : T O → T O) (f' : T O' → T O') (kids : F O) (i : Nat) (p : Path)
    (h : ∀ u, kids.get i p = some u → f' (u.map τ φ) = (f u).map τ φ) :
    (kids.map τ φ).modify f' i p = (kids.modify f i p).map τ φ := by
  match kids with
  | .nil => rfl
  | .cons j t rest =>
    rw [F.get] at h
    simp only [F.map, F.modify]
    by_cases e : i = j
    · rw [if_pos e] at h
      simp only [if_pos e, F.map]
      rw [T.modify_map f f' t p h]
    · rw [if_neg e] at h
      simp only [if_neg e, F.map]
      rw [F.modify_map f f' rest i p h]
end

theorem F.snoc_map (kids : F O) (i : Nat) (t : T O) : (kids.snoc i t).map τ φ = (kids.map τ φ).snoc i (t.map τ φ) := by
  match kids with
  | .nil => rfl
  | .cons j u rest => simp only [F.snoc, F.map, F.snoc_map rest i t]

theorem newKids_map (cfg : Cfg O) (cfg' : Cfg O') (hnew : ∀ a s, φ (newLeaf cfg a s) = newLeaf cfg' a s) (ds : List Stats) (i : Nat) :
    (newKids cfg i ds).map τ φ = newKids cfg' i ds := by
  induction ds generalizing i with
  | nil => rfl
  | cons d ds ih => simp only [newKids, F.map, T.map, hnew, ih]

/-- The leaves of the second tree do what those of the first do. -/
structure Mimics (I : Leaf O → Prop) (cfg : Cfg O) (cfg' : Cfg O') : Prop where
  inv : ∀ a s, I (newLeaf cfg a s)
  new : ∀ a s, φ (newLeaf cfg a s) = newLeaf cfg' a s
  active : ∀ l, (φ l).active = l.active
  stats : ∀ l, (φ l).stats = l.stats

/-- An instance in two presentations. -/
structure Same (I : Leaf O → Prop) (cfg : Cfg O) (cfg' : Cfg O') (e : Ev O) (e' : Ev O') : Prop where
  keeps : Keeps I cfg e
  memory : e'.memory = e.memory
  branch : ∀ t : Test, (τ t).branch e'.x = t.branch e.x
  two : ∀ t : Test, (∀ m, t ≠ .multi m) → ∀ m, τ t ≠ .multi m
  multi : ∀ m : MultiTest, ∃ m1 : MultiTest, τ (.multi m) = .multi m1 ∧
    match xget e.x m.att with
    | .error err => xget e'.x m1.att = .error err
    | .ok v => ∃ v1, xget e'.x m1.att = .ok v1 ∧
      match m.addBranch v with
      | .error err => m1.addBranch v1 = .error err
      | .ok (id, m2) => ∃ m3, m1.addBranch v1 = .ok (id, m3) ∧ τ (.multi m2) = .multi m3
  learn : ∀ l, I l → φ (l.learn cfg e.x e.y e.w) = (φ l).learn cfg' e'.x e'.y e'.w
  attempt : ∀ l, I l → (attempt cfg e l).map τ φ = HL.attempt cfg' e' (φ l)

variable {τ φ} {I : Leaf O → Prop} {cfg : Cfg O} {cfg' : Cfg O'}

theorem manage_map (hm : Mimics φ I cfg cfg') (m : List (Path × Bool)) (r : T O) :
    manage cfg' (r.map τ φ) m = (manage cfg r m).map τ φ := by
  unfold manage
  induction m generalizing r with
  | nil => rfl
  | cons q m ih =>
    rw [List.foldl_cons, List.foldl_cons, ← ih]
    congr 1
    apply T.modify_map
    intro u _
    cases u with
    | split t s kids => rfl
    | leaf l =>
      simp only [T.map, setActive, hm.active, hm.stats]
      by_cases e : l.active = q.2
      · rw [if_pos e, if_pos e, T.map]
      · rw [if_neg e, if_neg e, T.map, hm.new]

theorem step_map (hm : Mimics φ I cfg cfg') (root : Option (T O)) (hall : ∀ r, root = some r → r.All I) (e : Ev O) (e' : Ev O') (he : Same τ φ I cfg cfg' e e') :
    step cfg' (root.map (T.map τ φ)) e' = (step cfg root e).map (T.map τ φ) := by
  have hroot : (root.map (T.map τ φ)).getD (.leaf (newLeaf cfg' true [])) = (root.getD (.leaf (newLeaf cfg true []))).map τ φ := by
    cases root with
    | none => simp only [Option.map_none, Option.getD_none, T.map, hm.new]
    | some r => rfl
  have hnew : (newLeaf cfg' true []).learn cfg' e'.x e'.y e'.w = φ ((newLeaf cfg true []).learn cfg e.x e.y e.w) := by
    rw [he.learn _ (hm.inv _ _), hm.new]
  have hr : (root.getD (.leaf (newLeaf cfg true []))).All I := by
    cases root with
    | none => exact hm.inv _ _
    | some r => exact hall r rfl
  have hn := he.keeps.learn _ (hm.inv true [])
  unfold step
  simp only [hroot, hnew, he.memory]
  generalize root.getD (.leaf (newLeaf cfg true [])) = r at hr
  rw [T.filter_map τ φ e.x e'.x he.branch]
  cases r.filter e.x [] with
  | error err => rfl
  | ok f =>
    cases f with
    | missing p b =>
      have key : manage cfg' ((r.map τ φ).modify (fun n => match n with
            | .split t s kids => .split t s (kids.snoc b (attempt cfg' e' (φ ((newLeaf cfg true []).learn cfg e.x e.y e.w))))
            | n => n) p) e.memory =
          (manage cfg (r.modify (fun n => match n with
            | .split t s kids => .split t s (kids.snoc b (attempt cfg e ((newLeaf cfg true []).learn cfg e.x e.y e.w)))
            | n => n) p) e.memory).map τ φ := by
        rw [← manage_map hm]
        congr 1
        apply T.modify_map
        intro u _
        cases u with
        | leaf l => rfl
        | split t s kids => simp only [T.map, F.snoc_map, he.attempt _ hn]
      simp only [T.get_map]
      cases hg : r.get p with
      | none => simp only [Option.map_none]; split <;> first | rfl | exact congrArg Except.ok key
      | some u =>
        cases u with
        | leaf l => simp only [Option.map_some, T.map]; split <;> first | rfl | exact congrArg Except.ok key
        | split t s kids =>
          simp only [Option.map_some, T.map]
          cases t with
          | multi m =>
            obtain ⟨m1, hm1, -⟩ := he.multi m
            simp only [hm1]; exact congrArg Except.ok key
          | num t =>
            have := he.two (.num t) (by intro m; simp)
            cases ht : τ (.num t) with
            | multi m => exact absurd ht (this m)
            | num t => simp only []; split <;> first | rfl | exact congrArg Except.ok key
            | nom t => simp only []; split <;> first | rfl | exact congrArg Except.ok key
          | nom t =>
            have := he.two (.nom t) (by intro m; simp)
            cases ht : τ (.nom t) with
            | multi m => exact absurd ht (this m)
            | num t => simp only []; split <;> first | rfl | exact congrArg Except.ok key
            | nom t => simp only []; split <;> first | rfl | exact congrArg Except.ok key
    | node p =>
      simp only [T.get_map]
      cases hg : r.get p with
      | none => simp only [Option.map_none, manage_map hm]; rfl
      | some u =>
        cases u with
        | leaf l =>
          have hl := T.all_get I r hr p _ hg
          simp only [Option.map_some, T.map]
          rw [← he.learn l hl]
          have : manage cfg' ((r.map τ φ).modify (fun _ => HL.attempt cfg' e' (φ (l.learn cfg e.x e.y e.w))) p) e.memory =
              (manage cfg (r.modify (fun _ => HL.attempt cfg e (l.learn cfg e.x e.y e.w)) p) e.memory).map τ φ := by
            rw [← manage_map hm]
            congr 1
            apply T.modify_map
            intro u _
            rw [he.attempt _ (he.keeps.learn l hl)]
          rw [this]; rfl
        | split t s kids =>
          simp only [Option.map_some, T.map]
          cases t with
          | num t =>
            have := he.two (.num t) (by intro m; simp)
            cases ht : τ (.num t) with
            | multi m => exact absurd ht (this m)
            | num t => simp only [manage_map hm]; rfl
            | nom t => simp only [manage_map hm]; rfl
          | nom t =>
            have := he.two (.nom t) (by intro m; simp)
            cases ht : τ (.nom t) with
            | multi m => exact absurd ht (this m)
            | num t => simp only [manage_map hm]; rfl
            | nom t => simp only [manage_map hm]; rfl
          | multi m =>
            obtain ⟨m1, hm1, h⟩ := he.multi m
            simp only [hm1]
            cases hx : xget e.x m.att with
            | error err => rw [hx] at h; simp only [] at h; rw [h]; rfl
            | ok v =>
              rw [hx] at h
              obtain ⟨v1, hv1, h⟩ := h
              rw [hv1]
              simp only []
              cases ha : m.addBranch v with
              | error err => rw [ha] at h; simp only [] at h; rw [h]; rfl
              | ok q =>
                obtain ⟨id, m2⟩ := q
                rw [ha] at h
                obtain ⟨m3, hm3, hτ⟩ := h
                rw [hm3]
                simp only []
                have : manage cfg' ((r.map τ φ).modify (fun _ => .split (.multi m3) s
                      ((kids.map τ φ).snoc id (.leaf (φ ((newLeaf cfg true []).learn cfg e.x e.y e.w))))) p) e.memory =
                    (manage cfg (r.modify (fun _ => .split (.multi m2) s
                      (kids.snoc id (.leaf ((newLeaf cfg true []).learn cfg e.x e.y e.w)))) p) e.memory).map τ φ := by
                  rw [← manage_map hm]
                  congr 1
                  apply T.modify_map
                  intro u _
                  simp only [T.map, F.snoc_map, hτ]
                rw [this]; rfl

theorem run_map (hm : Mimics φ I cfg cfg') (root : Option (T O)) (hall : ∀ r, root = some r → r.All I) (es : List (Ev O)) (es' : List (Ev O'))
    (he : List.Forall₂ (Same τ φ I cfg cfg') es es') :
    run cfg' (root.map (T.map τ φ)) es' = (run cfg root es).map (Option.map (T.map τ φ)) := by
  induction he generalizing root with
  | nil => rfl
  | @cons e e' es es' h _ ih =>
    rw [run, run, step_map hm root hall e e' h]
    cases hs : step cfg root e with
    | error err => rfl
    | ok r =>
      refine ih (some r) ?_
      intro r' e
      cases e
      exact step_all I cfg hm.inv root hall _ h.keeps r hs

theorem votesAt_map (x x' : List ℚ) (hb : ∀ t : Test, (τ t).branch x' = t.branch x)
    (hv : ∀ l, (φ l).votes cfg' x' = l.votes cfg x) (root : Option (T O)) :
    votesAt cfg' (root.map (T.map τ φ)) x' = votesAt cfg root x := by
  cases root with
  | none => rfl
  | some r =>
    simp only [votesAt, Option.map_some, T.filter_map τ φ x x' hb, T.get_map]
    cases r.filter x [] with
    | error e => rfl
    | ok f =>
      cases f with
      | missing p b =>
        cases hg : r.get p with
        | none => simp only [hg, Option.map_none]
        | some u => cases u <;> simp only [hg, Option.map_some, T.map]
      | node p =>
        cases hg : r.get p with
        | none => simp only [hg, Option.map_none]
        | some u => cases u <;> simp only [hg, Option.map_some, T.map, hv]

end

end Verif.Trees.HL
