import Verif.Meta.Oza

/-! C118, C119, C121: OzaBaggingClassifier. -/

namespace Verif.Meta.Oza

variable {σ X Y : Type}

/-! ### Specification -/

/-- A sample with the `classes` argument of the call that brought it. -/
abbrev Datum (X Y : Type) := X × Y × Option (List Int)

/-- Training a base learner on a list of samples, one after the other. -/
def trainOn (b : Base σ X Y) (s : σ) (data : List (Datum X Y)) : σ :=
  data.foldl (fun s d => b.fit s d.1 d.2.1 d.2.2) s

/-- What member `i` of `n` should be trained on: sample number `j` as often as its
own Poisson draw says; the draws are made sample by sample, member by member. -/
def copies (poisson : Nat → Nat) (n i : Nat) (data : List (Datum X Y)) : List (Datum X Y) :=
  (data.zipIdx).flatMap fun q => List.replicate (poisson (q.2 * n + i)) q.1

/-- A sequence of `partial_fit` calls, ended by the first exception. -/
def run (b : Base σ X Y) (poisson : Nat → Nat) (s : St σ)
    (calls : List (List (X × Y) × Option (List Int))) : Except PyErr (St σ) :=
  calls.foldlM (fun s c => partialFit b poisson s c.1 c.2) s

/-- All samples of the calls, in order. -/
def allData (calls : List (List (X × Y) × Option (List Int))) : List (Datum X Y) :=
  calls.flatMap fun c => c.1.map fun r => (r.1, r.2, c.2)

/-! ### Training -/

theorem trainMember_eq (b : Base σ X Y) (c : Option (List Int)) (x : X) (y : Y) (k : Nat) (s : σ) :
    trainMember b c x y k s = trainOn b s (List.replicate k (x, y, c)) := by
  induction k generalizing s with
  | zero => rfl
  | succ k ih => simp only [trainMember, ih, List.replicate_succ, trainOn, List.foldl_cons]

theorem trainOn_append (b : Base σ X Y) (s : σ) (d e : List (Datum X Y)) :
    trainOn b s (d ++ e) = trainOn b (trainOn b s d) e := by simp [trainOn]

theorem trainRow_spec (b : Base σ X Y) (poisson : Nat → Nat) (c : Option (List Int)) (x : X) (y : Y)
    (ens : List σ) (pos : Nat) :
    (trainRow b poisson c x y ens pos).1.length = ens.length ∧
    (trainRow b poisson c x y ens pos).2 = pos + ens.length ∧
    ∀ i s, ens[i]? = some s → (trainRow b poisson c x y ens pos).1[i]? =
      some (trainOn b s (List.replicate (poisson (pos + i)) (x, y, c))) := by
  induction ens generalizing pos with
  | nil => simp [trainRow]
  | cons a ens ih =>
    obtain ⟨h1, h2, h3⟩ := ih (pos + 1)
    refine ⟨by simp [trainRow, h1], by simp only [trainRow, h2, List.length_cons]; omega, ?_⟩
    intro i s hs
    cases i with
    | zero =>
      simp only [List.getElem?_cons_zero, Option.some.injEq] at hs
      subst hs
      simp [trainRow, trainMember_eq]
    | succ i =>
      simp only [List.getElem?_cons_succ] at hs
      simp only [trainRow, List.getElem?_cons_succ, h3 i s hs]
      congr 4; omega

theorem trainRows_spec (b : Base σ X Y) (poisson : Nat → Nat) (c : Option (List Int))
    (rows : List (X × Y)) (ens : List σ) (j : Nat) :
    (trainRows b poisson c rows ens (j * ens.length)).1.length = ens.length ∧
    (trainRows b poisson c rows ens (j * ens.length)).2 = (j + rows.length) * ens.length ∧
    ∀ i s, ens[i]? = some s → (trainRows b poisson c rows ens (j * ens.length)).1[i]? =
      some (trainOn b s (((rows.map fun r => (r.1, r.2, c)).zipIdx j).flatMap fun q =>
        List.replicate (poisson (q.2 * ens.length + i)) q.1)) := by
  induction rows generalizing ens j with
  | nil => simp [trainRows, trainOn]
  | cons r rows ih =>
    obtain ⟨h1, h2, h3⟩ := trainRow_spec b poisson c r.1 r.2 ens (j * ens.length)
    have e : (trainRow b poisson c r.1 r.2 ens (j * ens.length)).2 =
        (j + 1) * (trainRow b poisson c r.1 r.2 ens (j * ens.length)).1.length := by
      rw [h1, h2]; ring
    obtain ⟨g1, g2, g3⟩ := ih (trainRow b poisson c r.1 r.2 ens (j * ens.length)).1 (j + 1)
    rw [← e] at g1 g2 g3
    rw [h1] at g1 g2 g3
    refine ⟨g1, ?_, ?_⟩
    · show (trainRows b poisson c rows _ _).2 = _
      rw [g2, List.length_cons]; ring
    · intro i s hs
      show (trainRows b poisson c rows _ _).1[i]? = _
      rw [g3 i _ (h3 i s hs)]
      simp only [List.map_cons, List.zipIdx_cons, List.flatMap_cons, trainOn_append]

/-- State after some successful calls on the samples `data`. -/
structure Inv (b : Base σ X Y) (poisson : Nat → Nat) (N : Nat) (known : List Int)
    (data : List (Datum X Y)) (s : St σ) : Prop where
  classes : s.classes = some known
  fits : known.length ≤ N
  len : s.ensemble.length = N
  pos : s.pos = data.length * N
  member : ∀ i, i < N → s.ensemble[i]? = some (trainOn b b.init (copies poisson N i data))

theorem trainRows_inv (b : Base σ X Y) (poisson : Nat → Nat) (N : Nat) (data : List (Datum X Y))
    (ens : List σ) (hl : ens.length = N)
    (hm : ∀ i, i < N → ens[i]? = some (trainOn b b.init (copies poisson N i data)))
    (rows : List (X × Y)) (c : Option (List Int)) (known : List Int) (hk : known.length ≤ N) :
    Inv b poisson N known (data ++ rows.map fun r => (r.1, r.2, c))
      ⟨(trainRows b poisson c rows ens (data.length * N)).1, some known,
        (trainRows b poisson c rows ens (data.length * N)).2⟩ := by
  subst hl
  obtain ⟨h1, h2, h3⟩ := trainRows_spec b poisson c rows ens data.length
  refine ⟨rfl, hk, h1, by simpa using h2, ?_⟩
  intro i hi
  show (trainRows b poisson c rows ens (data.length * ens.length)).1[i]? = _
  rw [h3 i _ (hm i hi), ← trainOn_append]
  simp only [copies, List.zipIdx_append, List.flatMap_append, Nat.zero_add]

theorem adjust_len (b : Base σ X Y) (c : List Int) (ens : List σ) (h : c.length ≤ ens.length) :
    adjust b c ens = ens := by
  unfold adjust
  split
  · rw [if_neg (by omega)]
  · rfl

theorem adjust_fresh (b : Base σ X Y) (c : List Int) (n : Nat) :
    adjust b c (List.replicate n b.init) = List.replicate (max n c.length) b.init := by
  unfold adjust
  simp only [List.length_replicate]
  split
  · split
    · rw [List.replicate_append_replicate]; congr 1; omega
    · congr 1; omega
  · congr 1; omega

/-- Any further calls keep the invariant. -/
theorem run_inv (b : Base σ X Y) (poisson : Nat → Nat) (N : Nat) (known : List Int) :
    ∀ (calls : List (List (X × Y) × Option (List Int))) (data : List (Datum X Y)) (s s' : St σ),
    Inv b poisson N known data s → run b poisson s calls = .ok s' →
    Inv b poisson N known (data ++ allData calls) s' := by
  intro calls
  induction calls with
  | nil =>
    intro data s s' h he
    cases he
    simpa [allData] using h
  | cons c calls ih =>
    intro data s s' h he
    simp only [run, List.foldlM_cons, bind, Except.bind] at he
    cases hp : partialFit b poisson s c.1 c.2 with
    | error e => rw [hp] at he; cases he
    | ok s1 =>
      rw [hp] at he
      have h1 : Inv b poisson N known (data ++ c.1.map fun r => (r.1, r.2, c.2)) s1 := by
        unfold partialFit at hp
        have hc : checkClasses s.classes c.2 = .ok known ∨ ∃ e, checkClasses s.classes c.2 = .error e := by
          rw [h.classes]; unfold checkClasses
          cases c.2 with
          | none => exact .inl rfl
          | some k => simp only; split
                      · exact .inl rfl
                      · exact .inr ⟨_, rfl⟩
        rcases hc with hc | ⟨e, hc⟩
        · simp only [hc] at hp
          rw [adjust_len b known s.ensemble (by rw [h.len]; exact h.fits), h.pos] at hp
          cases hp
          exact trainRows_inv b poisson N data s.ensemble h.len h.member c.1 c.2 known h.fits
        · simp only [hc] at hp; cases hp
      have := ih _ s1 s' h1 he
      simpa [allData] using this

theorem first_call (b : Base σ X Y) (poisson : Nat → Nat) (n : Nat) (known : List Int)
    (s : St σ) (hs : s = { fresh b n with classes := s.classes })
    (rows : List (X × Y)) (given : Option (List Int))
    (hc : checkClasses s.classes given = .ok known) :
    ∃ s1, partialFit b poisson s rows given = .ok s1 ∧
      Inv b poisson (max n known.length) known (rows.map fun r => (r.1, r.2, given)) s1 := by
  have he : s.ensemble = List.replicate n b.init := by rw [hs]; rfl
  have hp : s.pos = 0 := by rw [hs]; rfl
  unfold partialFit
  simp only [hc, he, hp, adjust_fresh]
  refine ⟨_, rfl, ?_⟩
  have := trainRows_inv b poisson (max n known.length) [] (List.replicate (max n known.length) b.init)
    (by simp) (by intro i hi; simp [hi, copies, trainOn]) rows given known (by omega)
  simpa using this

/-- **C118.** After any successful sequence of `partial_fit` calls on a fresh
ensemble, there are as many members as requested, or one per class if that is
more, and every member is in the state of a base learner trained on the samples
in order, each as often as the Poisson draw made for that sample and member. How
the samples were split into calls does not matter. -/
theorem C118_training (b : Base σ X Y) (poisson : Nat → Nat) (n : Nat)
    (rows : List (X × Y)) (classes : List Int)
    (calls : List (List (X × Y) × Option (List Int))) (s : St σ)
    (h : run b poisson (fresh b n) ((rows, some classes) :: calls) = .ok s) :
    s.ensemble.length = max n classes.length ∧
    ∀ i, i < max n classes.length → s.ensemble[i]? = some (trainOn b b.init
      (copies poisson (max n classes.length) i (allData ((rows, some classes) :: calls)))) := by
  obtain ⟨s1, h1, h2⟩ := first_call b poisson n classes (fresh b n) rfl rows (some classes) rfl
  simp only [run, List.foldlM_cons, bind, Except.bind, h1] at h
  have := run_inv b poisson _ classes calls _ s1 s h2 h
  refine ⟨this.len, ?_⟩
  have e : allData ((rows, some classes) :: calls) =
      (rows.map fun r => (r.1, r.2, some classes)) ++ allData calls := by simp [allData]
  rw [e]
  exact this.member

/-- Two lists name the same set of classes. -/
def SameClasses (a b : List Int) : Prop := ∀ x, x ∈ a ↔ x ∈ b

theorem sameSet_iff (a b : List Int) : sameSet a b = true ↔ SameClasses a b := by
  simp only [sameSet, SameClasses, Bool.and_eq_true, List.all_eq_true, List.contains_iff_mem]
  constructor
  · rintro ⟨h1, h2⟩ x; exact ⟨h1 x, h2 x⟩
  · intro h; exact ⟨fun x => (h x).1, fun x => (h x).2⟩

/-- **C118.** Exactly the calls that break the protocol raise, before any training:
the first call must name the classes and later calls may only name the same set. -/
theorem C118_protocol (b : Base σ X Y) (poisson : Nat → Nat) (s : St σ) (rows : List (X × Y))
    (given : Option (List Int)) :
    (∃ s', partialFit b poisson s rows given = .ok s') ↔
      match s.classes, given with
      | none, none => False
      | some k, some c => SameClasses k c
      | _, _ => True := by
  unfold partialFit checkClasses
  cases s.classes with
  | none => cases given <;> simp
  | some k =>
    cases given with
    | none => simp
    | some c =>
      simp only
      rw [← sameSet_iff]
      by_cases h : sameSet k c = true
      · simp [h]
      · simp [h]

/-- **C121, partial.** After `reset` an OzaBagging ensemble trains exactly like a
new one, provided the next call names the same classes as before (or, with no
training before, any).  Missing for a full reset: `classes` survives, see
`C121_classes_kept_violated`. -/
theorem C121_oza_reset_partial (b : Base σ X Y) (poisson : Nat → Nat) (n : Nat) (s : St σ)
    (rows : List (X × Y)) (classes : List Int) (hc : ∀ k, s.classes = some k → k = classes)
    (calls : List (List (X × Y) × Option (List Int))) :
    run b poisson (reset b n s) ((rows, some classes) :: calls) =
      run b poisson (fresh b n) ((rows, some classes) :: calls) := by
  have e : partialFit b poisson (reset b n s) rows (some classes) =
      partialFit b poisson (fresh b n) rows (some classes) := by
    have hk : checkClasses (reset b n s).classes (some classes) = .ok classes := by
      show checkClasses s.classes (some classes) = _
      cases hs : s.classes with
      | none => rfl
      | some k =>
        obtain rfl := hc k hs
        simp only [checkClasses]
        rw [if_pos ((sameSet_iff k k).2 fun x => Iff.rfl)]
    have hf : checkClasses (fresh b n).classes (some classes) = .ok classes := rfl
    unfold partialFit
    simp only [hk, hf]
    rfl
  simp only [run, List.foldlM_cons, e]

/-- **C121, violated.** After `reset` the ensemble still knows its old classes: a
call naming other classes raises, which it would not on a new ensemble; and a
call naming none is accepted, which a new ensemble rejects. -/
theorem C121_classes_kept_violated (b : Base σ X Y) (poisson : Nat → Nat) (n : Nat) (s : St σ)
    (k c : List Int) (hs : s.classes = some k) (hne : ¬ SameClasses k c) (rows : List (X × Y)) :
    partialFit b poisson (reset b n s) rows (some c) = .error .valueError ∧
    (∃ s', partialFit b poisson (fresh b n) rows (some c) = .ok s') ∧
    (∃ s', partialFit b poisson (reset b n s) rows none = .ok s') ∧
    partialFit b poisson (fresh b n) rows none = .error .valueError := by
  have h1 : (reset b n s).classes = some k := hs
  refine ⟨?_, ⟨_, rfl⟩, ?_, rfl⟩
  · unfold partialFit
    have : checkClasses (reset b n s).classes (some c) = .error .valueError := by
      rw [h1]; simp only [checkClasses]
      rw [if_neg (fun h => hne ((sameSet_iff k c).1 h))]
    simp only [this]
  · rw [C118_protocol, h1]; trivial

/-! ### C119: predictions -/

theorem getD_modify (a : List ℚ) (j : Nat) (v : ℚ) (hj : j < a.length) (k : Nat) :
    (a.modify j (· + v)).getD k 0 = a.getD k 0 + if k = j then v else 0 := by
  rw [List.getD_eq_getElem?_getD, List.getD_eq_getElem?_getD, List.getElem?_modify]
  by_cases h : j = k
  · subst h; simp [hj]
  · have h' : ¬ k = j := fun e => h e.symm
    simp [h, h']

theorem getD_snoc (a : List ℚ) (v : ℚ) (k : Nat) :
    (a ++ [v]).getD k 0 = a.getD k 0 + if k = a.length then v else 0 := by
  rw [List.getD_eq_getElem?_getD, List.getD_eq_getElem?_getD, List.getElem?_append]
  by_cases h : k < a.length
  · have : k ≠ a.length := by omega
    simp [h, this]
  · by_cases h2 : k = a.length
    · subst h2; simp
    · have : ¬ k - a.length < 1 := by omega
      rw [if_neg h]
      simp [h, h2, this]

theorem addRow_gen (p : List ℚ) : ∀ (j : Nat) (acc : List ℚ), j ≤ acc.length →
    ((p.zipIdx j).foldl (fun a q => if q.2 < a.length then a.modify q.2 (· + q.1) else a ++ [q.1])
      acc).length = max acc.length (j + p.length) ∧
    ∀ k, ((p.zipIdx j).foldl (fun a q => if q.2 < a.length then a.modify q.2 (· + q.1)
      else a ++ [q.1]) acc).getD k 0 = acc.getD k 0 + if j ≤ k then p.getD (k - j) 0 else 0 := by
  induction p with
  | nil =>
    intro j acc h
    refine ⟨by simp; omega, fun k => by simp⟩
  | cons v p ih =>
    intro j acc h
    simp only [List.zipIdx_cons, List.foldl_cons]
    by_cases hj : j < acc.length
    · rw [if_pos hj]
      obtain ⟨h1, h2⟩ := ih (j + 1) (acc.modify j (· + v)) (by simp; omega)
      refine ⟨by rw [h1]; simp; omega, fun k => ?_⟩
      rw [h2, getD_modify acc j v hj, add_assoc]
      congr 1
      by_cases e1 : k = j
      · subst e1; simp
      · by_cases e2 : j + 1 ≤ k
        · obtain ⟨m, rfl⟩ : ∃ m, k = j + 1 + m := ⟨k - (j + 1), by omega⟩
          have : j + 1 + m - j = m + 1 := by omega
          rw [if_neg e1, if_pos e2, if_pos (by omega), this]; simp
        · rw [if_neg e1, if_neg e2, if_neg (by omega)]; simp
    · rw [if_neg hj]
      have hj' : j = acc.length := by omega
      obtain ⟨h1, h2⟩ := ih (j + 1) (acc ++ [v]) (by simp; omega)
      refine ⟨by rw [h1]; simp; omega, fun k => ?_⟩
      rw [h2, getD_snoc acc v, add_assoc]
      congr 1
      by_cases e1 : k = j
      · subst e1; simp [hj']
      · by_cases e2 : j + 1 ≤ k
        · obtain ⟨m, rfl⟩ : ∃ m, k = j + 1 + m := ⟨k - (j + 1), by omega⟩
          have : j + 1 + m - j = m + 1 := by omega
          rw [if_neg (by omega), if_pos e2, if_pos (by omega), this]; simp
        · rw [if_neg (by omega), if_neg e2, if_neg (by omega)]; simp

theorem addRow_spec (acc p : List ℚ) : (addRow acc p).length = max acc.length p.length ∧
    ∀ k, (addRow acc p).getD k 0 = acc.getD k 0 + p.getD k 0 := by
  obtain ⟨h1, h2⟩ := addRow_gen p 0 acc (Nat.zero_le _)
  refine ⟨by unfold addRow; rw [h1, Nat.zero_add], fun k => ?_⟩
  unfold addRow
  rw [h2]; simp

/-- Specification: what the members give to class `k` for row `n`, together; `p`
tells what each member returns, a missing entry counts as 0. -/
def share (p : σ → List (List ℚ)) (ens : List σ) (n k : Nat) : ℚ :=
  (ens.map fun s => ((p s).getD n []).getD k 0).sum

/-- The members answer: one row per sample, and no class above the known ones in the first. -/
def Answers (b : Base σ X Y) (p : σ → List (List ℚ)) (classes : List Int) (xs : List X)
    (ens : List σ) : Prop :=
  ∃ m, classes.max? = some m ∧ ∀ s ∈ ens, b.proba s xs = .ok (p s) ∧ (p s).length = xs.length ∧
    ((((p s).getD 0 []).length : Nat) : Int) ≤ m + 1

theorem getD_zipWith (acc q : List (List ℚ)) (h : acc.length = q.length) (n : Nat) :
    (List.zipWith addRow acc q).getD n [] = addRow (acc.getD n []) (q.getD n []) := by
  simp only [List.getD_eq_getElem?_getD, List.getElem?_zipWith]
  by_cases hn : n < acc.length
  · have hn' : n < q.length := by omega
    simp [hn, hn']
  · have hn' : ¬ n < q.length := by omega
    simp [hn, hn', addRow]

theorem getD_zeros (q : List (List ℚ)) (n k : Nat) :
    ((q.map fun row => row.map fun _ => (0 : ℚ)).getD n []).getD k 0 = 0 := by
  simp only [List.getD_eq_getElem?_getD, List.getElem?_map]
  cases q[n]? with
  | none => simp
  | some row => simp only [Option.map_some, Option.getD_some, List.getElem?_map]; cases row[k]? <;> simp

theorem length_zeros (q : List (List ℚ)) (n : Nat) :
    ((q.map fun row => row.map fun _ => (0 : ℚ)).getD n []).length = (q.getD n []).length := by
  simp only [List.getD_eq_getElem?_getD, List.getElem?_map]
  cases q[n]? <;> simp

theorem probaLoop_ok (b : Base σ X Y) (p : σ → List (List ℚ)) (classes : List Int) (xs : List X)
    (hx : xs ≠ []) : ∀ (ens : List σ) (acc : List (List ℚ)), Answers b p classes xs ens →
    (acc = [] ∨ acc.length = xs.length) →
    ∃ acc', probaLoop b (some classes) xs ens acc = .ok acc' ∧
      (acc' = [] ∧ ens = [] ∨ acc'.length = xs.length) ∧
      ∀ n, (∀ k, (acc'.getD n []).getD k 0 = (acc.getD n []).getD k 0 + share p ens n k) ∧
        (acc'.getD n []).length = (ens.map fun s => ((p s).getD n []).length).foldr max
          (acc.getD n []).length := by
  intro ens
  induction ens with
  | nil =>
    intro acc _ h
    refine ⟨acc, rfl, ?_, fun n => ⟨fun k => by simp [share], rfl⟩⟩
    rcases h with h | h
    · exact .inl ⟨h, rfl⟩
    · exact .inr h
  | cons s ens ih =>
    intro acc ⟨m, hmax, hA⟩ hacc
    obtain ⟨a1, a2, a3⟩ := hA s List.mem_cons_self
    have hr : 0 < xs.length := List.length_pos_iff.2 hx
    cases hp : p s with
    | nil => rw [hp] at a2; simp at a2; omega
    | cons p0 ps =>
      rw [hp] at a3
      have a3' : ¬ ((p0.length : Int) > m + 1) := by simpa using a3
      unfold probaLoop
      simp only [a1, hp, hmax, if_neg a3']
      rw [← hp]
      have hbase : ∃ acc0 : List (List ℚ), (if acc.length < 1 then (p s).map (fun row => row.map fun _ => (0 : ℚ)) else acc) = acc0 ∧
          acc0.length = (p s).length ∧ ∀ n, (∀ k, (acc0.getD n []).getD k 0 = (acc.getD n []).getD k 0) ∧
            max (acc0.getD n []).length ((p s).getD n []).length = max (acc.getD n []).length ((p s).getD n []).length := by
        rcases hacc with rfl | h
        · refine ⟨_, if_pos (by simp), by simp, fun n => ⟨fun k => ?_, ?_⟩⟩
          · rw [getD_zeros]; simp
          · rw [length_zeros]; simp
        · exact ⟨acc, if_neg (by omega), by omega, fun n => ⟨fun k => rfl, rfl⟩⟩
      obtain ⟨acc0, e0, l0, g0⟩ := hbase
      rw [e0]
      obtain ⟨acc', h1, h2, h3⟩ := ih (List.zipWith addRow acc0 (p s))
        ⟨m, hmax, fun t ht => hA t (List.mem_cons_of_mem _ ht)⟩
        (.inr (by simp [l0, a2]))
      refine ⟨acc', h1, ?_, fun n => ⟨fun k => ?_, ?_⟩⟩
      · rcases h2 with ⟨h2, he⟩ | h2
        · subst he
          cases h1
          right; simp [l0, a2]
        · exact .inr h2
      · rw [(h3 n).1 k, getD_zipWith _ _ l0, (addRow_spec _ _).2, (g0 n).1]
        simp only [share, List.map_cons, List.sum_cons]; ring
      · rw [(h3 n).2, getD_zipWith _ _ l0, (addRow_spec _ _).1, (g0 n).2]
        simp only [List.map_cons, List.foldr_cons]
        generalize (ens.map fun s => ((p s).getD n []).length) = L
        induction L with
        | nil => simp [max_comm]
        | cons x L ihL => simp only [List.foldr_cons, ihL]; rw [max_left_comm]

theorem foldr_max (L : List Nat) (a : Nat) : (∀ x ∈ L, x ≤ L.foldr max a) ∧ a ≤ L.foldr max a ∧
    (L.foldr max a = a ∨ L.foldr max a ∈ L) := by
  induction L with
  | nil => simp
  | cons x L ih =>
    obtain ⟨h1, h2, h3⟩ := ih
    refine ⟨?_, by simp; omega, ?_⟩
    · intro y hy
      rcases List.mem_cons.1 hy with rfl | hy
      · simp
      · have := h1 y hy; simp; omega
    · simp only [List.foldr_cons, List.mem_cons]
      rcases le_total x (L.foldr max a) with h | h
      · rw [max_eq_right h]; tauto
      · rw [max_eq_left h]; tauto

theorem sum_normalise (row : List ℚ) (h : 0 < row.sum) : (normalise row).sum = 1 := by
  unfold normalise
  rw [if_pos h]
  have : (row.map (· / row.sum)).sum = row.sum / row.sum := by
    simp only [div_eq_mul_inv]
    rw [List.sum_map_mul_right, List.map_id']
  rw [this, div_self h.ne']

theorem getD_normalise (row : List ℚ) : ∃ c : ℚ, 0 < c ∧ (0 < row.sum → c = row.sum) ∧
    ∀ k, (normalise row).getD k 0 = row.getD k 0 / c := by
  unfold normalise
  by_cases h : row.sum > 0
  · refine ⟨row.sum, h, fun _ => rfl, fun k => ?_⟩
    rw [if_pos h]
    simp only [List.getD_eq_getElem?_getD, List.getElem?_map]
    cases row[k]? <;> simp
  · refine ⟨1, one_pos, fun h' => absurd h' h, fun k => ?_⟩
    rw [if_neg h]; simp

theorem length_normalise (row : List ℚ) : (normalise row).length = row.length := by
  unfold normalise; split <;> simp

/-- **C119.** When the members answer, the ensemble returns one row per sample with
a column for every class some member knows; each row is the sum of the members'
rows (missing entries counting as 0) divided by a positive number, so that it sums
to 1 whenever the members' entries are non-negative and not all zero. -/
theorem C119_probabilities (b : Base σ X Y) (p : σ → List (List ℚ)) (s : St σ) (classes : List Int)
    (hc : s.classes = some classes) (xs : List X) (hx : xs ≠ []) (hne : s.ensemble ≠ [])
    (hA : Answers b p classes xs s.ensemble) :
    ∃ res, predictProba b s xs = .ok res ∧ res.length = xs.length ∧ ∀ n, n < xs.length →
      ∃ row, res[n]? = some row ∧
        (∃ c, 0 < c ∧ ∀ k, row.getD k 0 = share p s.ensemble n k / c) ∧
        (∀ m ∈ s.ensemble, ((p m).getD n []).length ≤ row.length) ∧
        (row ≠ [] → ∃ m ∈ s.ensemble, ((p m).getD n []).length = row.length) ∧
        ((∀ k, 0 ≤ share p s.ensemble n k) → (∃ k, 0 < share p s.ensemble n k) → row.sum = 1) := by
  obtain ⟨acc, h1, h2, h3⟩ := probaLoop_ok b p classes xs hx s.ensemble [] hA (.inl rfl)
  have hl : acc.length = xs.length := by
    rcases h2 with ⟨_, h⟩ | h
    · exact absurd h hne
    · exact h
  refine ⟨acc.map normalise, by unfold predictProba; rw [hc]; simp only [h1], by simp [hl], ?_⟩
  intro n hn
  have hn' : n < acc.length := by omega
  have e : acc.getD n [] = acc[n] := by simp [List.getD_eq_getElem?_getD, hn']
  refine ⟨normalise acc[n], by simp [hn'], ?_, ?_, ?_, ?_⟩
  · obtain ⟨c, c1, _, c3⟩ := getD_normalise acc[n]
    refine ⟨c, c1, fun k => ?_⟩
    rw [c3, ← e, (h3 n).1 k]; simp
  · intro m hm
    rw [length_normalise, ← e, (h3 n).2]
    exact (foldr_max _ _).1 _ (List.mem_map.2 ⟨m, hm, rfl⟩)
  · intro hrow
    have hpos : 0 < acc[n].length := by
      rw [← length_normalise]; exact List.length_pos_iff.2 hrow
    rw [length_normalise, ← e, (h3 n).2]
    rcases (foldr_max (s.ensemble.map fun s => ((p s).getD n []).length)
      (List.getD ([] : List (List ℚ)) n []).length).2.2 with h | h
    · rw [← e, (h3 n).2, h] at hpos
      simp at hpos
    · rw [List.mem_map] at h
      obtain ⟨m, hm, h⟩ := h
      exact ⟨m, hm, h⟩
  · intro h0 ⟨k, hk⟩
    apply sum_normalise
    have hsh : ∀ k, acc[n].getD k 0 = share p s.ensemble n k := by
      intro k; rw [← e, (h3 n).1 k]; simp
    have hnn : ∀ v ∈ acc[n], 0 ≤ v := by
      intro v hv
      obtain ⟨k, hk, rfl⟩ := List.getElem_of_mem hv
      have := hsh k
      rw [List.getD_eq_getElem?_getD, List.getElem?_eq_getElem hk] at this
      simp only [Option.getD_some] at this
      rw [this]; exact h0 k
    have hk' := hsh k
    have hlt : k < acc[n].length := by
      by_contra hcon
      rw [List.getD_eq_getElem?_getD, List.getElem?_eq_none (by omega)] at hk'
      simp at hk'; linarith
    rw [List.getD_eq_getElem?_getD, List.getElem?_eq_getElem hlt] at hk'
    simp only [Option.getD_some] at hk'
    have : acc[n][k] ≤ acc[n].sum := List.single_le_sum hnn _ (List.getElem_mem hlt)
    linarith

/-- **C119.** The predicted class is one with the largest total share, the lowest
such class on ties. -/
theorem C119_predict (b : Base σ X Y) (p : σ → List (List ℚ)) (s : St σ) (classes : List Int)
    (hc : s.classes = some classes) (xs : List X) (hx : xs ≠ []) (hne : s.ensemble ≠ [])
    (hA : Answers b p classes xs s.ensemble) :
    ∃ res, predict b s xs = .ok res ∧ res.length = xs.length ∧ ∀ n, n < xs.length →
      (∃ m ∈ s.ensemble, (p m).getD n [] ≠ []) →
      ∃ k, res[n]? = some k ∧
        (∀ m ∈ s.ensemble, ∀ j, j < ((p m).getD n []).length →
          share p s.ensemble n j ≤ share p s.ensemble n k) ∧
        ∀ j, j < k → share p s.ensemble n j < share p s.ensemble n k := by
  obtain ⟨rows, h1, h2, h3⟩ := C119_probabilities b p s classes hc xs hx hne hA
  refine ⟨rows.map Lazy.argmax, by unfold predict; rw [h1]; rfl, by simp [h2], ?_⟩
  intro n hn ⟨m0, hm0, hr0⟩
  obtain ⟨row, e, ⟨c, c1, c2⟩, r1, r2, _⟩ := h3 n hn
  have hrow : row ≠ [] := by
    intro h0
    have := r1 m0 hm0
    rw [h0] at this
    exact hr0 (List.length_eq_zero_iff.1 (by simpa using this))
  obtain ⟨v, v1, v2, v3⟩ := Lazy.argmax_spec row hrow
  have hval : ∀ k w, row[k]? = some w → w = share p s.ensemble n k / c := by
    intro k w hw
    rw [← c2 k, List.getD_eq_getElem?_getD, hw]; rfl
  refine ⟨Lazy.argmax row, by simp [e], ?_, ?_⟩
  · intro m hm j hj
    have hj' : j < row.length := lt_of_lt_of_le hj (r1 m hm)
    have := v2 row[j] (List.getElem_mem hj')
    rw [hval j row[j] (List.getElem?_eq_getElem hj'), hval _ v v1] at this
    exact (div_le_div_iff_of_pos_right c1).1 this
  · intro j hj
    have hlt : Lazy.argmax row < row.length := by
      by_contra hcon
      rw [List.getElem?_eq_none (by omega)] at v1
      cases v1
    have hj' : j < row.length := by omega
    have := v3 j row[j] hj (List.getElem?_eq_getElem hj')
    rw [hval j row[j] (List.getElem?_eq_getElem hj'), hval _ v v1] at this
    exact (div_lt_div_iff_of_pos_right c1).1 this

/-- **C119, violated.** If a member returns more columns than the largest class
value plus one (the members before it answering normally), the whole answer is
replaced by zeros: every sample is predicted to be of class 0, whatever the
members say. -/
theorem C119_discarded_violated (b : Base σ X Y) (p : σ → List (List ℚ)) (s : St σ)
    (classes : List Int) (hc : s.classes = some classes) (xs : List X) (hx : xs ≠ [])
    (before after : List σ) (bad : σ) (he : s.ensemble = before ++ bad :: after)
    (hA : Answers b p classes xs before) (row : List ℚ) (rows : List (List ℚ))
    (hb : b.proba bad xs = .ok (row :: rows)) (m : Int) (hm : classes.max? = some m)
    (hlong : m + 1 < (row.length : Int)) :
    predictProba b s xs = .ok (List.replicate xs.length [0]) ∧
    predict b s xs = .ok (List.replicate xs.length 0) := by
  have key : ∀ acc, (acc = [] ∨ acc.length = xs.length) →
      probaLoop b (some classes) xs (before ++ bad :: after) acc = .error .valueError := by
    have hbad : ∀ acc, probaLoop b (some classes) xs (bad :: after) acc = .error .valueError := by
      intro acc
      unfold probaLoop
      simp only [hb, hm, if_pos hlong]
    clear he
    induction before with
    | nil => intro acc _; exact hbad acc
    | cons t before ih =>
      intro acc hacc
      obtain ⟨m', hm', hA'⟩ := hA
      obtain ⟨a1, a2, a3⟩ := hA' t List.mem_cons_self
      have hr : 0 < xs.length := List.length_pos_iff.2 hx
      rw [hm] at hm'
      cases hm'
      rw [List.cons_append]
      unfold probaLoop
      cases hp : p t with
      | nil => rw [hp] at a2; simp at a2; omega
      | cons p0 ps =>
        rw [hp] at a3
        have a3' : ¬ ((p0.length : Int) > m + 1) := by simpa using a3
        simp only [a1, hp, hm, if_neg a3']
        apply ih ⟨m, hm, fun u hu => hA' u (List.mem_cons_of_mem _ hu)⟩
        right
        rw [hp] at a2
        rcases hacc with rfl | h
        · simp at a2 ⊢; exact a2
        · rw [if_neg (by omega)]; simp [h] at a2 ⊢; omega
  have h1 : predictProba b s xs = .ok (List.replicate xs.length [0]) := by
    unfold predictProba
    rw [hc, he, key [] (.inl rfl)]
  refine ⟨h1, ?_⟩
  unfold predict
  rw [h1]
  simp [Except.map, Lazy.argmax]

/-- **C119.** Before the first `partial_fit` (with at least one answering member)
every sample is predicted to be of class 0, with probabilities `[0]`. -/
theorem C119_untrained (b : Base σ X Y) (n : Nat) (hn : 0 < n) (xs : List X)
    (row : List ℚ) (rows : List (List ℚ)) (h : b.proba b.init xs = .ok (row :: rows)) :
    predict b (fresh b n) xs = .ok (List.replicate xs.length 0) ∧
    predictProba b (fresh b n) xs = .ok (List.replicate xs.length [0]) := by
  obtain ⟨n, rfl⟩ : ∃ m, n = m + 1 := ⟨n - 1, by omega⟩
  unfold predict predictProba fresh
  simp only [List.replicate_succ]
  unfold probaLoop
  simp [h, Except.map, Lazy.argmax]

/-! ### Non-vacuity -/

/-- A base learner that lists what it was trained on; it votes for the last label it saw. -/
def lister : Base (List (Nat × Nat)) Nat Nat :=
  ⟨[], fun s x y _ => s ++ [(x, y)],
   fun s xs => .ok (xs.map fun _ => match s.getLast? with
     | none => [0]
     | some d => List.replicate d.2 0 ++ [1])⟩

/-- Three samples in two calls, two members requested, three classes: three members. -/
example : ((run lister (fun i => [1, 0, 2, 0, 1, 1, 3, 0, 0].getD i 0) (fresh lister 2)
      [([(10, 0), (11, 1)], some [0, 1, 2]), ([(12, 2)], none)]).toOption.map fun s => s.ensemble) =
    some [[(10, 0), (12, 2), (12, 2), (12, 2)], [(11, 1)], [(10, 0), (10, 0), (11, 1)]] := by decide

/-- The vote of those members: classes 2, 1 and 1. -/
example : (predict lister ⟨[[(10, 0), (12, 2)], [(11, 1)], [(11, 1)]], some [0, 1, 2], 9⟩
    [7]).toOption = some [1] := by decide +kernel

/-- A label 5 outside the declared classes: the votes are thrown away. -/
example : (predict lister ⟨[[(11, 1)], [(11, 1)], [(9, 5)]], some [0, 1, 2], 9⟩
    [7]).toOption = some [0] := by decide +kernel

example : Answers lister (fun s => [match s.getLast? with
     | none => [0]
     | some d => List.replicate d.2 0 ++ [1]]) [0, 1, 2] [7] [[(11, 1)], [(10, 0), (12, 2)]] :=
  ⟨2, by decide, by simp [lister]⟩

end Verif.Meta.Oza
