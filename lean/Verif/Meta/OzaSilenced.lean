import Verif.Meta.OzaProps

/-!
One label above the declared classes silences OzaBaggingClassifier for good
(meta/oza_bagging.py 124-194, 196-278).  C314.

Simplifications: those of `Oza.lean`; labels are natural numbers, and the rows a base learner
answers with have all the same length.
-/

namespace Verif.Meta.Oza

variable {σ X : Type}

/-! ### Specification -/

/-- A base learner whose rows of probabilities have, after every training with `enough`, an entry
for every label it was trained on, and never one beyond those and the classes it was told of;
`width` is the number of entries.  `KNNClassifier` is one
(`C314_knn`). -/
structure Widening (b : Base σ X Nat) (width : σ → Nat) (enough : List (Datum X Nat) → Prop) : Prop where
  rows : ∀ s xs, ∃ rs, b.proba s xs = .ok rs ∧ rs.length = xs.length ∧ ∀ r ∈ rs, r.length = width s
  covers : ∀ data, enough data → ∀ d ∈ data, d.2.1 < width (trainOn b b.init data)
  bounded : ∀ data (B : Nat), 0 < B → (∀ d ∈ data, d.2.1 < B ∧ ∀ k ∈ d.2.2.getD [], k < (B : Int)) →
    width (trainOn b b.init data) ≤ B

/-- What a member answers. -/
def answer (b : Base σ X Nat) (xs : List X) (s : σ) : List (List ℚ) :=
  match b.proba s xs with
  | .ok r => r
  | .error _ => []

/-! ### Lemmas -/

theorem first_bad {α : Type} (P : α → Prop) (l : List α) (h : ∃ a ∈ l, P a) :
    ∃ l1 a l2, l = l1 ++ a :: l2 ∧ P a ∧ ∀ x ∈ l1, ¬ P x := by
  induction l with
  | nil => simp at h
  | cons b l ih =>
    by_cases hb : P b
    · exact ⟨[], b, l, rfl, hb, by simp⟩
    · obtain ⟨l1, a, l2, e, h1, h2⟩ := ih (by
        obtain ⟨a, ha, hp⟩ := h
        rcases List.mem_cons.mp ha with rfl | ha
        · exact absurd hp hb
        · exact ⟨a, ha, hp⟩)
      refine ⟨b :: l1, a, l2, by rw [e]; rfl, h1, ?_⟩
      intro x hx
      rcases List.mem_cons.mp hx with rfl | hx
      · exact hb
      · exact h2 x hx

theorem classes_run {Y : Type} (b : Base σ X Y) (poisson : Nat → Nat) (known : List Int)
    (calls : List (List (X × Y) × Option (List Int))) (s s' : St σ) (hs : s.classes = some known)
    (h : run b poisson s calls = .ok s') :
    s'.classes = some known ∧ ∀ c ∈ calls, ∀ k ∈ c.2.getD [], k ∈ known := by
  induction calls generalizing s with
  | nil => cases h; exact ⟨hs, by simp⟩
  | cons c calls ih =>
    simp only [run, List.foldlM_cons, bind, Except.bind] at h
    cases hp : partialFit b poisson s c.1 c.2 with
    | error e => rw [hp] at h; cases h
    | ok s1 =>
      rw [hp] at h
      have hpr := (C118_protocol b poisson s c.1 c.2).mp ⟨s1, hp⟩
      have h1 : s1.classes = some known := by
        unfold partialFit at hp
        rw [hs] at hp
        cases hc : checkClasses (some known) c.2 with
        | error e => rw [hc] at hp; cases hp
        | ok k =>
          rw [hc] at hp
          have : k = known := by
            unfold checkClasses at hc
            cases h2 : c.2 with
            | none => rw [h2] at hc; cases hc; rfl
            | some g =>
              rw [h2] at hc
              dsimp only at hc
              split at hc
              · cases hc; rfl
              · cases hc
          subst this
          cases hp
          rfl
      obtain ⟨r1, r2⟩ := ih s1 h1 h
      refine ⟨r1, ?_⟩
      intro d hd k hk
      rcases List.mem_cons.mp hd with rfl | hd
      · rw [hs] at hpr
        cases h2 : d.2 with
        | none => rw [h2] at hk; simp at hk
        | some g =>
          rw [h2] at hpr hk
          exact (hpr k).mpr hk
      · exact r2 d hd k hk

theorem classes_after {Y : Type} (b : Base σ X Y) (poisson : Nat → Nat) (n : Nat) (rows : List (X × Y))
    (classes : List Int) (calls : List (List (X × Y) × Option (List Int))) (s : St σ)
    (h : run b poisson (fresh b n) ((rows, some classes) :: calls) = .ok s) :
    s.classes = some classes ∧
      ∀ d ∈ allData ((rows, some classes) :: calls), ∀ k ∈ d.2.2.getD [], k ∈ classes := by
  obtain ⟨s1, h1, h2⟩ := first_call b poisson n classes (fresh b n) rfl rows (some classes) rfl
  simp only [run, List.foldlM_cons, bind, Except.bind, h1] at h
  obtain ⟨r1, r2⟩ := classes_run b poisson classes calls s1 s h2.classes h
  refine ⟨r1, ?_⟩
  intro d hd k hk
  simp only [allData, List.flatMap_cons, List.mem_append, List.mem_map, List.mem_flatMap] at hd
  rcases hd with ⟨r, _, rfl⟩ | ⟨c, hc, r, _, rfl⟩
  · exact hk
  · exact r2 c hc k hk

theorem answer_ok {b : Base σ X Nat} {width : σ → Nat}
    {enough : List (Datum X Nat) → Prop} (W : Widening b width enough) (xs : List X) (s : σ) :
    b.proba s xs = .ok (answer b xs s) ∧ (answer b xs s).length = xs.length ∧
      ∀ r ∈ answer b xs s, r.length = width s := by
  obtain ⟨rs, h1, h2, h3⟩ := W.rows s xs
  unfold answer
  rw [h1]
  exact ⟨rfl, h2, h3⟩

theorem answer_zero {b : Base σ X Nat} {width : σ → Nat}
    {enough : List (Datum X Nat) → Prop} (W : Widening b width enough) (xs : List X)
    (hx : xs ≠ []) (s : σ) : ∃ r rs, answer b xs s = r :: rs ∧ r.length = width s := by
  obtain ⟨_, h2, h3⟩ := answer_ok W xs s
  cases h : answer b xs s with
  | nil =>
    rw [h] at h2
    exact absurd (List.length_eq_zero_iff.mp h2.symm) hx
  | cons r rs => exact ⟨r, rs, rfl, h3 r (by simp [h])⟩

/-! ### C314 -/

/-- Once a member has been trained (enough) with one sample whose label lies above all declared
classes (no call raises), the ensemble answers class 0 for every row, whatever came before and comes after. -/
theorem C314_silenced {b : Base σ X Nat} {width : σ → Nat}
    {enough : List (Datum X Nat) → Prop} (W : Widening b width enough) (poisson : Nat → Nat)
    (n : Nat) (rows : List (X × Nat)) (classes : List Int)
    (calls : List (List (X × Nat) × Option (List Int))) (s : St σ)
    (h : run b poisson (fresh b n) ((rows, some classes) :: calls) = .ok s)
    (m : Int) (hm : classes.max? = some m) (j : Nat) (d : Datum X Nat)
    (hd : (allData ((rows, some classes) :: calls))[j]? = some d) (hy : m < (d.2.1 : Int))
    (i : Nat) (hi : i < max n classes.length) (hk : 0 < poisson (j * max n classes.length + i))
    (he : enough (copies poisson (max n classes.length) i (allData ((rows, some classes) :: calls))))
    (xs : List X) (hx : xs ≠ []) :
    predictProba b s xs = .ok (List.replicate xs.length [0]) ∧
    predict b s xs = .ok (List.replicate xs.length 0) := by
  obtain ⟨hl, hmem⟩ := C118_training b poisson n rows classes calls s h
  obtain ⟨hc, _⟩ := classes_after b poisson n rows classes calls s h
  have hw := W.covers _ he d (by
      unfold copies
      rw [List.mem_flatMap]
      refine ⟨(d, j), ?_, ?_⟩
      · rw [List.mem_zipIdx_iff_getElem?]; exact hd
      · rw [List.mem_replicate]
        exact ⟨by dsimp only; omega, rfl⟩)
  obtain ⟨before, bad, after, e, hbad, hgood⟩ := first_bad (fun a => m + 1 < (width a : Int)) s.ensemble
    ⟨_, List.mem_of_getElem? (hmem i hi), by omega⟩
  obtain ⟨r, rs, e1, e2⟩ := answer_zero W xs hx bad
  refine C119_discarded_violated b (answer b xs) s classes hc xs hx before after bad e ?_ r rs
    (by rw [← e1]; exact (answer_ok W xs bad).1) m hm (by rw [e2]; exact hbad)
  refine ⟨m, hm, ?_⟩
  intro a ha
  obtain ⟨a1, a2, _⟩ := answer_ok W xs a
  obtain ⟨r', rs', f1, f2⟩ := answer_zero W xs hx a
  refine ⟨a1, a2, ?_⟩
  have := hgood a ha
  rw [f1]
  simp only [List.getD_cons_zero, f2]
  omega

/-- As long as no member is trained on a label above the declared classes, the votes count: every
row gets a class with the largest sum of the members' probabilities, the first of them. -/
theorem C314_heard {b : Base σ X Nat} {width : σ → Nat}
    {enough : List (Datum X Nat) → Prop} (W : Widening b width enough) (poisson : Nat → Nat)
    (n : Nat) (rows : List (X × Nat)) (classes : List Int)
    (calls : List (List (X × Nat) × Option (List Int))) (s : St σ)
    (h : run b poisson (fresh b n) ((rows, some classes) :: calls) = .ok s)
    (m : Nat) (hm : classes.max? = some (m : Int))
    (hy : ∀ j d i, (allData ((rows, some classes) :: calls))[j]? = some d → i < max n classes.length →
      0 < poisson (j * max n classes.length + i) → d.2.1 ≤ m)
    (xs : List X) (hx : xs ≠ []) :
    ∃ res, predict b s xs = .ok res ∧ res.length = xs.length ∧ ∀ r, r < xs.length →
      (∃ a ∈ s.ensemble, (answer b xs a).getD r [] ≠ []) →
      ∃ k, res[r]? = some k ∧
        (∀ a ∈ s.ensemble, ∀ j, j < ((answer b xs a).getD r []).length →
          share (answer b xs) s.ensemble r j ≤ share (answer b xs) s.ensemble r k) ∧
        ∀ j, j < k → share (answer b xs) s.ensemble r j < share (answer b xs) s.ensemble r k := by
  obtain ⟨hl, hmem⟩ := C118_training b poisson n rows classes calls s h
  obtain ⟨hc, hcl⟩ := classes_after b poisson n rows classes calls s h
  have hne : classes ≠ [] := by rintro rfl; simp at hm
  have hens : s.ensemble ≠ [] := by
    intro he
    rw [he] at hl
    have : 0 < classes.length := List.length_pos_iff.mpr hne
    simp only [List.length_nil] at hl
    omega
  have hmax : ∀ k ∈ classes, k ≤ (m : Int) := (List.max?_eq_some_iff.mp hm).2
  refine C119_predict b (answer b xs) s classes hc xs hx hens ⟨m, hm, ?_⟩
  intro a ha
  obtain ⟨a1, a2, _⟩ := answer_ok W xs a
  obtain ⟨r', rs', f1, f2⟩ := answer_zero W xs hx a
  refine ⟨a1, a2, ?_⟩
  rw [f1]
  simp only [List.getD_cons_zero, f2]
  obtain ⟨i, hi, hai⟩ := List.mem_iff_getElem.mp ha
  have hi' : i < max n classes.length := hl ▸ hi
  have := hmem i hi'
  rw [List.getElem?_eq_getElem hi, Option.some.injEq, hai] at this
  subst this
  have hw : width (trainOn b b.init (copies poisson (max n classes.length) i
      (allData ((rows, some classes) :: calls)))) ≤ m + 1 := by
    refine W.bounded _ (m + 1) (by omega) ?_
    intro d hd
    unfold copies at hd
    rw [List.mem_flatMap] at hd
    obtain ⟨⟨d', j⟩, hj, hr⟩ := hd
    rw [List.mem_replicate] at hr
    obtain ⟨hr1, rfl⟩ := hr
    rw [List.mem_zipIdx_iff_getElem?] at hj
    dsimp only at hj hr1 ⊢
    have hle := hy j d i hj hi' (by omega)
    refine ⟨by omega, ?_⟩
    intro k hk
    have := hmax k (hcl d (List.mem_of_getElem? hj) k hk)
    push_cast
    omega
  omega

/-! ### KNNClassifier, the base learner of the documented example -/

/-- `KNNClassifier` as a member of the ensemble: lines 181-186 of meta/oza_bagging.py call
`partial_fit` with one sample.  That `predict_proba` stores the classes it has met
(lazy/knn_classifier.py 176) is not modelled: they are collected anew. -/
def knnBase (w k : Nat) (query : List (X × Nat) → X → List Nat) : Base (Lazy.Knn X) X Nat :=
  ⟨⟨[], []⟩, fun s x y c => s.fit w [(x, y)] (c.map fun l => l.map Int.toNat),
   fun s xs => s.predictProba k query xs⟩

def knnWidth (k : Nat) (s : Lazy.Knn X) : Nat :=
  if s.win.length < k then 1 else (s.classes ++ s.win.map Prod.snd).foldl max 0 + 1

theorem knn_trained (w k : Nat) (query : List (X × Nat) → X → List Nat) (data : List (Datum X Nat))
    (h : List (X × Nat)) (cs : List Nat) :
    trainOn (knnBase w k query) ⟨lastN w h, cs⟩ data =
      ⟨lastN w (h ++ data.map fun d => (d.1, d.2.1)),
        cs ++ data.flatMap fun d => (d.2.2.map fun l => l.map Int.toNat).getD []⟩ := by
  induction data generalizing h cs with
  | nil => simp [trainOn]
  | cons a data ih =>
    have e : trainOn (knnBase w k query) ⟨lastN w h, cs⟩ (a :: data) =
        trainOn (knnBase w k query) ⟨lastN w (h ++ [(a.1, a.2.1)]),
          cs ++ (a.2.2.map fun l => l.map Int.toNat).getD []⟩ data := by
      simp only [trainOn, List.foldl_cons, knnBase, Lazy.Knn.fit, Lazy.addSample, List.foldl_nil,
        lastN_lastN_append]
    rw [e, ih]
    simp

theorem foldl_max_lt (l : List Nat) (a B : Nat) (ha : a < B) (h : ∀ x ∈ l, x < B) : l.foldl max a < B := by
  induction l generalizing a with
  | nil => exact ha
  | cons x l ih =>
    rw [List.foldl_cons]
    refine ih _ ?_ fun y hy => h y (by simp [hy])
    have := h x (by simp)
    omega

/-- `KNNClassifier` meets the condition, with at least `n_neighbors` and at most `max_window_size`
samples, for every neighbour query that gives positions in the window. -/
theorem C314_knn (w k : Nat) (query : List (X × Nat) → X → List Nat)
    (hq : ∀ win x, ∀ i ∈ query win x, i < win.length) :
    Widening (knnBase w k query) (knnWidth k) (fun data => k ≤ data.length ∧ data.length ≤ w) where
  rows s xs := by
    simp only [knnBase, Lazy.Knn.predictProba, knnWidth]
    split
    · exact ⟨_, rfl, by simp, by simp⟩
    · have key : ∀ x, ∃ p, Lazy.votesFor s.win ((s.classes ++ s.win.map Prod.snd).foldl max 0) (query s.win x) =
          .ok p ∧ p.length = (s.classes ++ s.win.map Prod.snd).foldl max 0 + 1 := by
        intro x
        obtain ⟨p, h1, h2, _⟩ := Lazy.votesFor_spec s.win
          ((s.classes ++ s.win.map Prod.snd).foldl max 0) (query s.win x) (hq s.win x) (by
            intro a ha
            exact (Lazy.le_foldl_max _ 0).2 a.2 (by
              rw [List.mem_append]
              exact .inr (List.mem_map.mpr ⟨a, ha, rfl⟩)))
        exact ⟨p, h1, h2⟩
      choose g hg1 hg2 using key
      refine ⟨xs.map g, Lazy.mapM_ok _ g xs fun a _ => hg1 a, by simp, ?_⟩
      intro r hr
      obtain ⟨x, _, rfl⟩ := List.mem_map.mp hr
      exact hg2 x
  covers data h d hd := by
    have e := knn_trained w k query data [] []
    rw [lastN_nil] at e
    have e' : trainOn (knnBase w k query) (knnBase w k query).init data = _ := e
    rw [e', List.nil_append, lastN_of_le (by rw [List.length_map]; exact h.2), knnWidth,
      if_neg (by rw [List.length_map]; omega)]
    have := (Lazy.le_foldl_max (([] ++ data.flatMap fun d => (d.2.2.map fun l => l.map Int.toNat).getD []) ++
      (data.map fun d => (d.1, d.2.1)).map Prod.snd) 0).2 d.2.1 (by
        rw [List.mem_append, List.map_map]
        exact .inr (List.mem_map.mpr ⟨d, hd, rfl⟩))
    exact Nat.lt_succ_of_le this
  bounded data B hB h := by
    have e := knn_trained w k query data [] []
    rw [lastN_nil] at e
    have e' : trainOn (knnBase w k query) (knnBase w k query).init data = _ := e
    rw [e', List.nil_append, knnWidth]
    split
    · exact hB
    · refine Nat.succ_le_of_lt (foldl_max_lt _ _ _ hB ?_)
      intro x hx
      rw [List.mem_append, List.nil_append, List.mem_flatMap, List.mem_map] at hx
      rcases hx with ⟨d, hd, hx⟩ | ⟨a, ha, rfl⟩
      · have := (h d hd).2
        cases hc : d.2.2 with
        | none => rw [hc] at hx; simp at hx
        | some l =>
          rw [hc] at hx this
          obtain ⟨z, hz, rfl⟩ := List.mem_map.mp hx
          have := this z hz
          omega
      · obtain ⟨d, hd, rfl⟩ := List.mem_map.mp ((lastN_suffix w _).subset ha)
        exact (h d hd).1

/-! ### Non-vacuity -/

/-- Two nearest-neighbour members (one neighbour, the newest sample), declared classes 0 and 1: a
sample labelled 2 silences them. -/
example : ((run (knnBase 10 1 fun win (_ : Nat) => if win.length = 0 then [] else [win.length - 1])
      (fun i => [1, 1, 1, 1, 0, 1, 1, 1].getD i 0) (fresh (knnBase 10 1 fun win (_ : Nat) =>
        if win.length = 0 then [] else [win.length - 1]) 2)
      [([(10, 0), (11, 1)], some [0, 1]), ([(12, 2), (13, 1)], none)]).toOption.bind fun s =>
        (predict (knnBase 10 1 fun win (_ : Nat) => if win.length = 0 then [] else [win.length - 1]) s
          [7, 8]).toOption) = some [0, 0] := by decide +kernel

/-- A base learner that votes for the last label it saw once it has seen two samples, in a row as
long as the largest label needs. -/
def widener : Base (List Nat) Nat Nat :=
  ⟨[], fun s _ y _ => s ++ [y],
   fun s xs => .ok (xs.map fun _ => if s.length < 2 then [0] else
     (List.range (s.foldr max 0 + 1)).map fun k => if some k = s.getLast? then 1 else 0)⟩

theorem widener_trained (data : List (Datum Nat Nat)) (s : List Nat) :
    trainOn widener s data = s ++ data.map fun d => d.2.1 := by
  induction data generalizing s with
  | nil => simp [trainOn]
  | cons a data ih =>
    have := ih (s ++ [a.2.1])
    simp only [trainOn, List.foldl_cons, widener, List.map_cons] at this ⊢
    rw [this]
    simp

theorem foldr_max_lt (l : List Nat) (B : Nat) (hB : 0 < B) (h : ∀ a ∈ l, a < B) : l.foldr max 0 < B := by
  induction l with
  | nil => exact hB
  | cons a l ih =>
    have h1 := h a (by simp)
    have h2 := ih fun x hx => h x (by simp [hx])
    simp only [List.foldr_cons]
    omega

theorem le_foldr_max (l : List Nat) (a : Nat) (h : a ∈ l) : a ≤ l.foldr max 0 := by
  induction l with
  | nil => simp at h
  | cons b l ih =>
    simp only [List.foldr_cons]
    rcases List.mem_cons.mp h with rfl | h
    · omega
    · have := ih h; omega

theorem widener_widening :
    Widening widener (fun s => if s.length < 2 then 1 else s.foldr max 0 + 1) (fun data => 2 ≤ data.length) where
  rows s xs := by
    refine ⟨_, rfl, by simp, ?_⟩
    intro r hr
    obtain ⟨_, _, rfl⟩ := List.mem_map.mp hr
    split <;> simp
  covers data h d hd := by
    have e : trainOn widener widener.init data = data.map fun d => d.2.1 := widener_trained data []
    rw [e, if_neg (by rw [List.length_map]; omega)]
    have := le_foldr_max (data.map fun d => d.2.1) d.2.1 (List.mem_map.mpr ⟨d, hd, rfl⟩)
    omega
  bounded data B hB h := by
    have e : trainOn widener widener.init data = data.map fun d => d.2.1 := widener_trained data []
    rw [e]
    have := foldr_max_lt (data.map fun d => d.2.1) B hB (by
      intro a ha
      obtain ⟨d, hd, rfl⟩ := List.mem_map.mp ha
      exact (h d hd).1)
    split <;> omega

/-- Two classes; the third sample, labelled 2, is drawn by one of two members: then all answers are
0, although both members go on voting for 1. -/
example : ((run widener (fun i => [1, 1, 1, 1, 0, 1, 1, 1].getD i 0) (fresh widener 2)
      [([(10, 0), (11, 1)], some [0, 1])]).toOption.bind fun s => (predict widener s [7, 8]).toOption) =
    some [1, 1] := by decide +kernel

example : ((run widener (fun i => [1, 1, 1, 1, 0, 1, 1, 1].getD i 0) (fresh widener 2)
      [([(10, 0), (11, 1)], some [0, 1]), ([(12, 2), (13, 1)], none)]).toOption.bind fun s =>
        (predict widener s [7, 8]).toOption) = some [0, 0] := by decide +kernel

end Verif.Meta.Oza
