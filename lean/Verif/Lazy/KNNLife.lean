import Verif.Lazy.KNNAdwin

/-!
C284: what earlier calls of `predict` and `reset` leave behind in the nearest-neighbour classifiers.

`predict_proba` adds the labels it finds in the window to `self.classes`
(knn_classifier.py 176-177) and `reset` (base_neighbors.py 32-36, knn_adwin.py 100-112) does not
empty that list.
-/

namespace Verif.Lazy

variable {X : Type}

/-- The calls. -/
inductive KOp (X : Type)
  | fit (batch : List (X × Nat)) (classes : Option (List Nat))
  | ask (rows : List X)
  | reset

/-- A call: `partial_fit` (knn_classifier.py 126-133), `predict_proba` or `predict` (135-186), `reset`
(base_neighbors.py 32-36). -/
def Knn.op (w k : Nat) (m : Knn X) : KOp X → Knn X
  | .fit batch classes => m.fit w batch classes
  | .ask _ => if m.win.length < k then m else { m with classes := m.classes ++ m.win.map Prod.snd }
  | .reset => { m with win := [] }

/-- The state after some calls. -/
def Knn.after (w k : Nat) (ops : List (KOp X)) : Knn X := ops.foldl (Knn.op w k) ⟨[], []⟩

/-! ### Specification -/

/-- The samples given since the last `reset`. -/
def given (ops : List (KOp X)) : List (X × Nat) :=
  ops.foldl (fun l o => match o with
    | .fit batch _ => l ++ batch
    | .ask _ => l
    | .reset => []) []

/-- The labels the classifier has met: named in a `partial_fit`, or in the window when it answered. -/
def Met (w k : Nat) (ops : List (KOp X)) (c : Nat) : Prop :=
  (∃ batch cs, KOp.fit batch (some cs) ∈ ops ∧ c ∈ cs) ∨
  ∃ before rows later, ops = before ++ .ask rows :: later ∧ k ≤ (lastN w (given before)).length ∧
    ∃ q ∈ lastN w (given before), q.2 = c

/-- A neighbour search that finds `k` places in every window of at least `k` samples. -/
def Finds (k : Nat) (query : List (X × Nat) → X → List Nat) : Prop :=
  ∀ win x, k ≤ win.length → (query win x).length = k ∧ ∀ i ∈ query win x, i < win.length

/-! ### The window, the classes, the rows -/

theorem given_snoc (ops : List (KOp X)) (o : KOp X) : given (ops ++ [o]) = match o with
    | .fit batch _ => given ops ++ batch
    | .ask _ => given ops
    | .reset => [] := by
  unfold given
  rw [List.foldl_append]
  rfl

theorem after_snoc (w k : Nat) (ops : List (KOp X)) (o : KOp X) :
    Knn.after w k (ops ++ [o]) = (Knn.after w k ops).op w k o := by
  unfold Knn.after
  rw [List.foldl_append]
  rfl

theorem after_win (w k : Nat) (ops : List (KOp X)) : (Knn.after w k ops).win = lastN w (given ops) := by
  induction ops using List.reverseRecOn with
  | nil => simp [Knn.after, given, lastN]
  | append_singleton ops o ih =>
    rw [after_snoc, given_snoc]
    cases o with
    | fit batch classes => simp only [Knn.op, Knn.fit]; rw [ih, fit_window]
    | ask rows => simp only [Knn.op]; split <;> exact ih
    | reset => simp [Knn.op, lastN]

theorem met_snoc (w k : Nat) (ops : List (KOp X)) (o : KOp X) (c : Nat) :
    Met w k (ops ++ [o]) c ↔ Met w k ops c ∨ match o with
      | .fit _ (some cs) => c ∈ cs
      | .fit _ none => False
      | .ask _ => k ≤ (lastN w (given ops)).length ∧ ∃ q ∈ lastN w (given ops), q.2 = c
      | .reset => False := by
  unfold Met
  constructor
  · rintro (⟨batch, cs, h, hc⟩ | ⟨before, rows, later, h, h1, h2⟩)
    · rcases List.mem_append.1 h with h | h
      · exact .inl (.inl ⟨batch, cs, h, hc⟩)
      · have := List.mem_singleton.1 h
        subst this
        exact .inr hc
    · rcases List.eq_nil_or_concat later with rfl | ⟨l, z, rfl⟩
      · have := List.append_inj' h rfl
        obtain ⟨rfl, this⟩ := this
        simp only [List.cons.injEq, and_true] at this
        subst this
        exact .inr ⟨h1, h2⟩
      · have h' : ops ++ [o] = (before ++ .ask rows :: l) ++ [z] := by simpa using h
        obtain ⟨rfl, -⟩ := List.append_inj' h' rfl
        exact .inl (.inr ⟨before, rows, l, rfl, h1, h2⟩)
  · rintro ((⟨batch, cs, h, hc⟩ | ⟨before, rows, later, h, h1, h2⟩) | h)
    · exact .inl ⟨batch, cs, List.mem_append_left _ h, hc⟩
    · exact .inr ⟨before, rows, later ++ [o], by rw [h]; simp, h1, h2⟩
    · cases o with
      | fit batch classes =>
        cases classes with
        | none => exact h.elim
        | some cs => exact .inl ⟨batch, cs, by simp, h⟩
      | ask rows => exact .inr ⟨ops, rows, [], rfl, h.1, h.2⟩
      | reset => exact h.elim

theorem mem_after (w k : Nat) (ops : List (KOp X)) (c : Nat) : c ∈ (Knn.after w k ops).classes ↔ Met w k ops c := by
  induction ops using List.reverseRecOn with
  | nil => simp [Knn.after, Met]
  | append_singleton ops o ih =>
    rw [after_snoc, met_snoc, ← ih]
    cases o with
    | fit batch classes => cases classes <;> simp [Knn.op, Knn.fit]
    | ask rows =>
      simp only [Knn.op]
      rw [after_win]
      by_cases hk : (lastN w (given ops)).length < k
      · rw [if_pos hk]
        exact ⟨.inl, fun h => h.elim id fun h => absurd h.1 (by omega)⟩
      · rw [if_neg hk]
        simp only [List.mem_append, List.mem_map]
        exact ⟨fun h => h.imp id fun h => ⟨by omega, h⟩, fun h => h.imp id fun h => h.2⟩
    | reset => simp [Knn.op]

/-- All rows of an answer: frequencies among the neighbours, up to the largest label known. -/
theorem proba_rows (k : Nat) (query : List (X × Nat) → X → List Nat) (hq : Finds k query) (m : Knn X) (hk : k ≤ m.win.length)
    (rows : List X) :
    m.predictProba k query rows = .ok (rows.map fun x => (List.range ((m.classes ++ m.win.map Prod.snd).foldl max 0 + 1)).map
      fun c => freq (labels m.win (query m.win x)) c) := by
  unfold Knn.predictProba
  simp only
  rw [if_neg (by omega)]
  set mc := (m.classes ++ m.win.map Prod.snd).foldl max 0 with hmc
  have hlab : ∀ s ∈ m.win, s.2 ≤ mc := by
    intro s hs
    apply (le_foldl_max _ 0).2
    simp only [List.mem_append, List.mem_map]
    exact .inr ⟨s, hs, rfl⟩
  have hrow : ∀ x, votesFor m.win mc (query m.win x) =
      .ok ((List.range (mc + 1)).map fun c => freq (labels m.win (query m.win x)) c) := by
    intro x
    obtain ⟨p, h1, h2, h3⟩ := votesFor_spec m.win mc (query m.win x) (hq m.win x hk).2 hlab
    rw [h1]
    congr 1
    apply sum_eq_of_getElem? p _ _ h2
    intro c hc
    rw [h3 c (by omega)]
    simp only [freq, length_labels m.win _ (hq m.win x hk).2]
    rw [mul_one_div]
    rfl
  rw [mapM_ok _ _ rows (fun x _ => hrow x)]

theorem foldl_max_mem (l : List Nat) (a : Nat) : l.foldl max a = a ∨ l.foldl max a ∈ l := by
  induction l generalizing a with
  | nil => exact .inl rfl
  | cons b l ih =>
    rw [List.foldl_cons]
    rcases ih (max a b) with h | h
    · rcases le_total a b with hab | hab
      · rw [max_eq_right hab] at h ⊢; exact .inr (by rw [h]; simp)
      · rw [max_eq_left hab] at h ⊢; exact .inl h
    · exact .inr (List.mem_cons_of_mem _ h)

/-- C284: a row of `predict_proba` holds the label frequencies among the neighbours, found among the
samples since the last `reset`. It has an entry for every label up to the largest one the classifier
ever met: named in a `partial_fit`, in the window at an earlier answer, or in the window now; a
`reset` does not forget any. -/
theorem C284_proba (w k : Nat) (hk : 0 < k) (query : List (X × Nat) → X → List Nat) (hq : Finds k query) (ops : List (KOp X))
    (hs : k ≤ (lastN w (given ops)).length) (rows : List X) :
    ∃ top, (Knn.after w k ops).predictProba k query rows =
        .ok (rows.map fun x => (List.range (top + 1)).map fun c =>
          freq (labels (lastN w (given ops)) (query (lastN w (given ops)) x)) c) ∧
      (Met w k ops top ∨ ∃ q ∈ lastN w (given ops), q.2 = top) ∧
      (∀ c, Met w k ops c → c ≤ top) ∧ ∀ q ∈ lastN w (given ops), q.2 ≤ top := by
  have hw := after_win w k ops
  have hp := proba_rows k query hq (Knn.after w k ops) (by rw [hw]; exact hs) rows
  rw [hw] at hp
  refine ⟨_, hp, ?_, ?_, ?_⟩
  · have hne : ∃ q, q ∈ lastN w (given ops) := List.exists_mem_of_length_pos (by omega)
    obtain ⟨q, hq'⟩ := hne
    have hbig := (le_foldl_max ((Knn.after w k ops).classes ++ (lastN w (given ops)).map Prod.snd) 0).2 q.2
      (by simp only [List.mem_append, List.mem_map]; exact .inr ⟨q, hq', rfl⟩)
    rcases foldl_max_mem ((Knn.after w k ops).classes ++ (lastN w (given ops)).map Prod.snd) 0 with h | h
    · rw [h] at hbig ⊢
      exact .inr ⟨q, hq', by omega⟩
    · rcases List.mem_append.1 h with h | h
      · exact .inl ((mem_after w k ops _).1 h)
      · obtain ⟨q, h1, h2⟩ := List.mem_map.1 h
        exact .inr ⟨q, h1, h2⟩
  · intro c hc
    exact (le_foldl_max _ 0).2 c (List.mem_append_left _ ((mem_after w k ops c).2 hc))
  · intro q hq'
    exact (le_foldl_max _ 0).2 q.2 (List.mem_append_right _ (List.mem_map.2 ⟨q, hq', rfl⟩))

/-- The prediction does not depend on the labels remembered. -/
theorem predict_win (k : Nat) (hk : 0 < k) (query : List (X × Nat) → X → List Nat) (hq : Finds k query) (win : List (X × Nat))
    (cs cs' : List Nat) (rows : List X) :
    (⟨win, cs⟩ : Knn X).predict k query rows = (⟨win, cs'⟩ : Knn X).predict k query rows := by
  by_cases hs : win.length < k
  · simp only [Knn.predict, Knn.predictProba, if_pos hs]
  · have hs : k ≤ win.length := by omega
    have hl : lastN win.length win = win := by simp [lastN]
    have key : ∀ cs : List Nat, ∃ p, (⟨win, cs⟩ : Knn X).predict k query rows = .ok p ∧ p.length = rows.length ∧
        ∀ (i : Nat) (x : X) (c : Nat), rows[i]? = some x → p[i]? = some c →
          let ls := labels win (query win x)
          (∀ d, ls.count d ≤ ls.count c) ∧ ∀ d < c, ls.count d < ls.count c := by
      intro cs
      have := C31_predict_is_majority win.length k hk query win [] cs none rows
        (by simpa [hl] using fun x => hq win x hs) (by simpa [hl] using hs)
      simp only [List.append_nil, hl] at this
      obtain ⟨p, h1, h2, h3⟩ := this
      refine ⟨p, ?_, h2, fun i x c hx hc => (h3 i x c hx hc).2⟩
      simpa [Knn.fit] using h1
    obtain ⟨p, a1, a2, a3⟩ := key cs
    obtain ⟨p', b1, b2, b3⟩ := key cs'
    rw [a1, b1]
    congr 1
    apply List.ext_getElem (by rw [a2, b2])
    intro i h1 h2
    have hx : rows[i]? = some rows[i] := List.getElem?_eq_getElem (by omega)
    have ha := a3 i rows[i] p[i] hx (List.getElem?_eq_getElem h1)
    have hb := b3 i rows[i] p'[i] hx (List.getElem?_eq_getElem h2)
    rcases Nat.lt_trichotomy p[i] p'[i] with h | h | h
    · have := hb.2 _ h; have := ha.1 p'[i]; omega
    · exact h
    · have := ha.2 _ h; have := hb.1 p[i]; omega

/-- C284: `predict` depends only on the samples given since the last `reset`: earlier calls of
`predict`, the classes named and everything before the `reset` make no difference. -/
theorem C284_predict (w k : Nat) (hk : 0 < k) (query : List (X × Nat) → X → List Nat) (hq : Finds k query)
    (ops ops' : List (KOp X)) (h : given ops = given ops') (rows : List X) :
    (Knn.after w k ops).predict k query rows = (Knn.after w k ops').predict k query rows := by
  have h1 := after_win w k ops
  have h2 := after_win w k ops'
  rw [← h] at h2
  generalize Knn.after w k ops = m at h1
  generalize Knn.after w k ops' = m' at h2
  obtain ⟨win, cs⟩ := m
  obtain ⟨win', cs'⟩ := m'
  simp only at h1 h2
  subst h1; subst h2
  exact predict_win k hk query hq _ cs cs' rows

/-! ### kNN-ADWIN -/

/-- `reset`, knn_adwin.py 100-112. -/
def KA.reset (s : KA X) : KA X := ⟨[], s.classes, Adwin.init⟩

/-- Window and detector. -/
def KA.core (s : KA X) := (s.win, s.det)

theorem judge_classes (k : Nat) (hk : 0 < k) (query : List (X × Nat) → X → List Nat) (hq : Finds k query) (win : List (X × Nat))
    (cs cs' : List Nat) (x : X) (y : Nat) : judge k query ⟨win, cs⟩ x y = judge k query ⟨win, cs'⟩ x y := by
  unfold judge
  rw [predict_win k hk query hq win cs cs' [x]]

theorem rows_core (w k : Nat) (hk : 0 < k) (query : List (X × Nat) → X → List Nat) (hq : Finds k query) (batch : List (X × Nat))
    (win : List (X × Nat)) (d : Adwin.State) (cs cs' : List Nat) :
    (KA.rows w k query ⟨win, cs, d⟩ batch).map KA.core = (KA.rows w k query ⟨win, cs', d⟩ batch).map KA.core := by
  induction batch generalizing win d with
  | nil => rfl
  | cons q qs ih =>
    rw [KA.rows, KA.rows]
    unfold KA.row
    simp only
    rw [judge_classes k hk query hq _ cs cs']
    cases judge k query ⟨addSample w win q, cs'⟩ q.1 q.2 with
    | error e => rfl
    | ok v =>
      simp only
      cases Adwin.addElement d v with
      | error e => rfl
      | ok d' => exact ih _ _

theorem fit_core (cut : Adwin.Cut) (w k : Nat) (hk : 0 < k) (query : List (X × Nat) → X → List Nat) (hq : Finds k query)
    (batch : List (X × Nat)) (classes : Option (List Nat)) (win : List (X × Nat)) (d : Adwin.State) (cs cs' : List Nat) :
    (KA.fit cut w k query ⟨win, cs, d⟩ batch classes).map KA.core =
      (KA.fit cut w k query ⟨win, cs', d⟩ batch classes).map KA.core := by
  have := rows_core w k hk query hq batch win d (cs ++ classes.getD []) (cs' ++ classes.getD [])
  unfold KA.fit
  simp only
  cases h1 : KA.rows w k query ⟨win, cs ++ classes.getD [], d⟩ batch with
  | error e =>
    cases h2 : KA.rows w k query ⟨win, cs' ++ classes.getD [], d⟩ batch with
    | error e' => rw [h1, h2] at this; exact this
    | ok t => rw [h1, h2] at this; cases this
  | ok s =>
    cases h2 : KA.rows w k query ⟨win, cs' ++ classes.getD [], d⟩ batch with
    | error e' => rw [h1, h2] at this; cases this
    | ok t =>
      rw [h1, h2] at this
      obtain ⟨sw, sc, sd⟩ := s
      obtain ⟨tw, tc, td⟩ := t
      simp only [Except.map, KA.core, Except.ok.injEq, Prod.mk.injEq] at this
      obtain ⟨rfl, rfl⟩ := this
      simp only
      split
      · cases Adwin.step cut sd .check with
        | none => rfl
        | some r => cases r <;> rfl
      · rfl

/-- C284: after `reset` a kNN-ADWIN classifier has, after any calls, the window and the detector a new
one has, and raises when that does. -/
theorem C284_adwin_reset (cut : Adwin.Cut) (w k : Nat) (hk : 0 < k) (query : List (X × Nat) → X → List Nat) (hq : Finds k query)
    (calls : List (List (X × Nat) × Option (List Nat))) (s : KA X) :
    (KA.fits cut w k query s.reset calls).map (fun s => (s.win, s.det)) =
      (KA.fits cut w k query KA.new calls).map fun s => (s.win, s.det) := by
  have gen : ∀ (calls : List (List (X × Nat) × Option (List Nat))) (win : List (X × Nat)) (d : Adwin.State) (cs cs' : List Nat),
      (KA.fits cut w k query ⟨win, cs, d⟩ calls).map KA.core = (KA.fits cut w k query ⟨win, cs', d⟩ calls).map KA.core := by
    intro calls
    induction calls with
    | nil => intro win d cs cs'; rfl
    | cons c calls ih =>
      intro win d cs cs'
      have := fit_core cut w k hk query hq c.1 c.2 win d cs cs'
      rw [KA.fits, KA.fits]
      cases h1 : KA.fit cut w k query ⟨win, cs, d⟩ c.1 c.2 with
      | error e =>
        cases h2 : KA.fit cut w k query ⟨win, cs', d⟩ c.1 c.2 with
        | error e' => rw [h1, h2] at this; exact this
        | ok t => rw [h1, h2] at this; cases this
      | ok s =>
        cases h2 : KA.fit cut w k query ⟨win, cs', d⟩ c.1 c.2 with
        | error e' => rw [h1, h2] at this; cases this
        | ok t =>
          rw [h1, h2] at this
          obtain ⟨sw, sc, sd⟩ := s
          obtain ⟨tw, tc, td⟩ := t
          simp only [Except.map, KA.core, Except.ok.injEq, Prod.mk.injEq] at this
          obtain ⟨rfl, rfl⟩ := this
          exact ih _ _ _ _
  exact gen calls [] Adwin.init s.classes []

/-! ### Non-vacuity -/

/-- The first `k` places are a search that always finds. -/
def firstK (k : Nat) (_ : List (Nat × Nat)) (_ : Nat) : List Nat := List.range k

example : Finds 2 (firstK 2) := by
  intro win x h
  refine ⟨by simp [firstK], fun i hi => ?_⟩
  have := List.mem_range.1 hi
  omega

/-- Label 4 was in the window when the classifier answered, then it was reset: rows still have five
entries; had it not been asked, they would have two. The predictions are the same. -/
example :
    ((Knn.after 5 2 [.fit [(7, 4), (8, 1)] none, .ask [7], .reset, .fit [(7, 1), (7, 0)] none] : Knn Nat).predictProba 2 (firstK 2) [7]).toOption
      = some [[1/2, 1/2, 0, 0, 0]] ∧
    ((Knn.after 5 2 [.fit [(7, 4), (8, 1)] none, .reset, .fit [(7, 1), (7, 0)] none] : Knn Nat).predictProba 2 (firstK 2) [7]).toOption
      = some [[1/2, 1/2]] ∧
    ((Knn.after 5 2 [.fit [(7, 4), (8, 1)] none, .ask [7], .reset, .fit [(7, 1), (7, 0)] none] : Knn Nat).predict 2 (firstK 2) [7]).toOption
      = some [0] := by
  decide +kernel

end Verif.Lazy
