import Verif.Trees.Grow

/-!
Two facts about `Grow.G.learn`: invariants of the leaves without any assumption on the shape of the
tree, and simulation of one tree by another with the same shape.
-/

namespace Verif.Trees.Grow

open Verif.Trees Verif.Trees.HL

variable {L S L' S' : Type}

theorem GF.snoc_all (P : L → Prop) (Q : S → Prop) (kids : GF L S) (i : Nat) (t : G L S) (hk : kids.All P Q) (ht : t.All P Q) :
    (kids.snoc i t).All P Q := by
  match kids with
  | .nil => exact ⟨ht, trivial⟩
  | .cons j u rest => exact ⟨hk.1, GF.snoc_all P Q rest i t hk.2 ht⟩

theorem sprout_all (P : L → Prop) (Q : S → Prop) (x : List ℚ) (g : L → Except PyErr L) (new : L)
    (hg : ∀ l, g new = .ok l → P l) (s : S) (hs : Q s) (kids : GF L S) (hk : kids.All P Q) (t : Test) (r' : G L S)
    (h : sprout x g new s kids t = .ok r') : r'.All P Q := by
  cases t with
  | multi m =>
    simp only [sprout] at h
    cases h1 : xget x m.att with
    | error e => simp [h1] at h
    | ok v =>
      simp only [h1] at h
      cases h2 : m.addBranch v with
      | error e => simp [h2] at h
      | ok p =>
        simp only [h2] at h
        cases h3 : g new with
        | error e => simp [h3] at h
        | ok l =>
          simp only [h3, Except.ok.injEq] at h
          rw [← h]
          exact ⟨hs, GF.snoc_all P Q kids _ _ hk (hg l h3)⟩
  | _ =>
    simp only [sprout, Except.ok.injEq] at h
    rw [← h]
    exact ⟨hs, hk⟩

mutual
theorem G.learn_all (P : L → Prop) (Q : S → Prop) (x : List ℚ) (f : L → Except PyErr (G L S)) (g : L → Except PyErr L)
    (new : L) (hf : ∀ l, P l ∨ l = new → ∀ t, f l = .ok t → t.All P Q) (hg : ∀ l, g new = .ok l → P l)
    (r : G L S) (hr : r.All P Q) (r' : G L S) (h : r.learn x f g new = .ok r') : r'.All P Q := by
  match r with
  | .leaf l => exact hf l (.inl hr) r' (by simpa only [G.learn] using h)
  | .split t s kids =>
    rw [G.learn] at h
    cases hb : t.branch x with
    | error e => simp [hb] at h
    | ok b =>
      simp only [hb] at h
      by_cases hp : b ≥ 0
      · rw [if_pos hp] at h
        cases hk : kids.learn x f g new b.toNat with
        | error e => simp [hk] at h
        | ok kids' =>
          simp only [hk, Except.ok.injEq] at h
          rw [← h]
          exact ⟨hr.1, GF.learn_all P Q x f g new hf hg kids b.toNat hr.2 kids' hk⟩
      · rw [if_neg hp] at h
        exact sprout_all P Q x g new hg s hr.1 kids hr.2 t r' h
theorem GF.learn_all (P : L → Prop) (Q : S → Prop) (x : List ℚ) (f : L → Except PyErr (G L S)) (g : L → Except PyErr L)
    (new : L) (hf : ∀ l, P l ∨ l = new → ∀ t, f l = .ok t → t.All P Q) (hg : ∀ l, g new = .ok l → P l)
    (kids : GF L S) (b : Nat) (hr : kids.All P Q) (r' : GF L S) (h : kids.learn x f g new b = .ok r') : r'.All P Q := by
  match kids with
  | .nil =>
    rw [GF.learn] at h
    cases hk : f new with
    | error e => simp [hk] at h
    | ok t =>
      simp only [hk, Except.ok.injEq] at h
      rw [← h]
      exact ⟨hf new (.inr rfl) t hk, trivial⟩
  | .cons j t rest =>
    rw [GF.learn] at h
    by_cases e : b = j
    · rw [if_pos e] at h
      cases hk : t.learn x f g new with
      | error e => simp [hk] at h
      | ok t' =>
        simp only [hk, Except.ok.injEq] at h
        rw [← h]
        exact ⟨G.learn_all P Q x f g new hf hg t hr.1 t' hk, hr.2⟩
    · rw [if_neg e] at h
      cases hk : rest.learn x f g new b with
      | error e => simp [hk] at h
      | ok t' =>
        simp only [hk, Except.ok.injEq] at h
        rw [← h]
        exact ⟨hr.1, GF.learn_all P Q x f g new hf hg rest b hr.2 t' hk⟩
end

mutual
/-- The same tree with other leaves and split statistics. -/
def G.map (φ : L → L') (ψ : S → S') : G L S → G L' S'
  | .leaf l => .leaf (φ l)
  | .split t s kids => .split t (ψ s) (kids.map φ ψ)
/-- See `G.map`. -/
def GF.map (φ : L → L') (ψ : S → S') : GF L S → GF L' S'
  | .nil => .nil
  | .cons j t rest => .cons j (t.map φ ψ) (rest.map φ ψ)
end

/-- The node an instance is routed to in the mapped tree. -/
def End.map (φ : L → L') (ψ : S → S') : End L S → End L' S'
  | .leaf l => .leaf (φ l)
  | .stuck s => .stuck (ψ s)
  | .missing => .missing

mutual
theorem G.route_map (φ : L → L') (ψ : S → S') (x : List ℚ) (r : G L S) :
    (r.map φ ψ).route x = (r.route x).map (End.map φ ψ) := by
  match r with
  | .leaf l => rfl
  | .split t s kids =>
    rw [G.map, G.route, G.route]
    cases t.branch x with
    | error e => rfl
    | ok b =>
      by_cases hp : b ≥ 0
      · simp only [if_pos hp]; exact GF.route_map φ ψ x kids b.toNat
      · simp only [if_neg hp]; rfl
theorem GF.route_map (φ : L → L') (ψ : S → S') (x : List ℚ) (kids : GF L S) (b : Nat) :
    (kids.map φ ψ).route x b = (kids.route x b).map (End.map φ ψ) := by
  match kids with
  | .nil => rfl
  | .cons j t rest =>
    rw [GF.map, GF.route, GF.route]
    by_cases e : b = j
    · simp only [if_pos e]; exact G.route_map φ ψ x t
    · simp only [if_neg e]; exact GF.route_map φ ψ x rest b
end

theorem GF.snoc_map (φ : L → L') (ψ : S → S') (kids : GF L S) (i : Nat) (t : G L S) :
    (kids.snoc i t).map φ ψ = (kids.map φ ψ).snoc i (t.map φ ψ) := by
  match kids with
  | .nil => rfl
  | .cons j u rest => simp only [GF.snoc, GF.map, GF.snoc_map φ ψ rest i t]

theorem kidsFrom_map {D D' : Type} (φ : L → L') (ψ : S → S') (mk : D → L) (mk' : D' → L') (δ : D → D')
    (h : ∀ d, φ (mk d) = mk' (δ d)) (ds : List D) (i : Nat) :
    (kidsFrom (S := S) mk i ds).map φ ψ = kidsFrom mk' i (ds.map δ) := by
  induction ds generalizing i with
  | nil => rfl
  | cons d ds ih => simp only [kidsFrom, GF.map, G.map, List.map_cons, h, ih]

theorem sprout_map (φ : L → L') (ψ : S → S') (x : List ℚ) (g : L → Except PyErr L) (g' : L' → Except PyErr L') (new : L)
    (hg : g' (φ new) = (g new).map φ) (s : S) (kids : GF L S) (t : Test) :
    sprout x g' (φ new) (ψ s) (kids.map φ ψ) t = (sprout x g new s kids t).map (G.map φ ψ) := by
  cases t with
  | multi m =>
    simp only [sprout]
    cases h1 : xget x m.att with
    | error e => rfl
    | ok v =>
      simp only
      cases h2 : m.addBranch v with
      | error e => rfl
      | ok p =>
        simp only [hg]
        cases h3 : g new with
        | error e => rfl
        | ok l => simp only [Except.map, G.map, GF.snoc_map]
  | _ => rfl

mutual
theorem G.learn_map (φ : L → L') (ψ : S → S') (x : List ℚ) (f : L → Except PyErr (G L S)) (g : L → Except PyErr L)
    (f' : L' → Except PyErr (G L' S')) (g' : L' → Except PyErr L') (new : L) (hg : g' (φ new) = (g new).map φ) (r : G L S)
    (hf : ∀ l, r.route x = .ok (.leaf l) ∨ (r.route x = .ok .missing ∧ l = new) → f' (φ l) = (f l).map (G.map φ ψ)) :
    (r.map φ ψ).learn x f' g' (φ new) = (r.learn x f g new).map (G.map φ ψ) := by
  match r with
  | .leaf l => simpa only [G.map, G.learn] using hf l (.inl rfl)
  | .split t s kids =>
    rw [G.map, G.learn, G.learn]
    rw [G.route] at hf
    cases hb : t.branch x with
    | error e => rfl
    | ok b =>
      simp only [hb] at hf
      by_cases hp : b ≥ 0
      · simp only [if_pos hp] at hf ⊢
        rw [GF.learn_map φ ψ x f g f' g' new hg kids b.toNat hf]
        cases kids.learn x f g new b.toNat <;> rfl
      · simp only [if_neg hp]
        exact sprout_map φ ψ x g g' new hg s kids t
theorem GF.learn_map (φ : L → L') (ψ : S → S') (x : List ℚ) (f : L → Except PyErr (G L S)) (g : L → Except PyErr L)
    (f' : L' → Except PyErr (G L' S')) (g' : L' → Except PyErr L') (new : L) (hg : g' (φ new) = (g new).map φ) (kids : GF L S)
    (b : Nat)
    (hf : ∀ l, kids.route x b = .ok (.leaf l) ∨ (kids.route x b = .ok .missing ∧ l = new) → f' (φ l) = (f l).map (G.map φ ψ)) :
    (kids.map φ ψ).learn x f' g' (φ new) b = (kids.learn x f g new b).map (GF.map φ ψ) := by
  match kids with
  | .nil =>
    rw [GF.map, GF.learn, GF.learn, hf new (.inr ⟨rfl, rfl⟩)]
    cases f new <;> rfl
  | .cons j t rest =>
    rw [GF.map, GF.learn, GF.learn]
    rw [GF.route] at hf
    by_cases e : b = j
    · simp only [if_pos e] at hf ⊢
      rw [G.learn_map φ ψ x f g f' g' new hg t hf]
      cases t.learn x f g new <;> rfl
    · simp only [if_neg e] at hf ⊢
      rw [GF.learn_map φ ψ x f g f' g' new hg rest b hf]
      cases rest.learn x f g new b <;> rfl
end

mutual
theorem G.mapLeaves_map (φ : L → L') (ψ : S → S') (f : List Nat → L → L) (f' : List Nat → L' → L')
    (h : ∀ p l, f' p (φ l) = φ (f p l)) (r : G L S) (p : List Nat) :
    (r.map φ ψ).mapLeaves f' p = (r.mapLeaves f p).map φ ψ := by
  match r with
  | .leaf l => simp only [G.map, G.mapLeaves, h]
  | .split t s kids => simp only [G.map, G.mapLeaves, GF.mapLeaves_map φ ψ f f' h kids p]
theorem GF.mapLeaves_map (φ : L → L') (ψ : S → S') (f : List Nat → L → L) (f' : List Nat → L' → L')
    (h : ∀ p l, f' p (φ l) = φ (f p l)) (kids : GF L S) (p : List Nat) :
    (kids.map φ ψ).mapLeaves f' p = (kids.mapLeaves f p).map φ ψ := by
  match kids with
  | .nil => rfl
  | .cons j t rest =>
    simp only [GF.map, GF.mapLeaves, G.mapLeaves_map φ ψ f f' h t, GF.mapLeaves_map φ ψ f f' h rest]
end

end Verif.Trees.Grow
