import Verif.Meta.SkewRus
import Mathlib.Algebra.Module.Pi
import Mathlib.Tactic.FinCases
import Mathlib.Data.Fin.VecNotation

/-!
Model of `meta/online_smote_bagging.py` (`partial_fit`, 181-257, and `online_smote`, 259-272); C184.

Samples are vectors of rationals.  Distances, `np.argsort` and the random source are arbitrary;
of `argsort` only that it returns a permutation of the indices is used, of the random source that
`randint(0, k)` is below `k` and `rand()` in `[0, 1)`.  The drift part is that of `Meta/Skew.lean`.
-/

namespace Verif.Meta.Skew.Smote

open Verif.Meta.Oza (Det feed checkClasses sameSet)
open Verif.Meta.Skew

variable {σ δ : Type} {d : Nat}

/-- A sample. -/
abbrev Vec (d : Nat) := Fin d → ℚ

/-- What the code takes from elsewhere; each draw has its number. -/
structure Src (d : Nat) where
  dist : Vec d → Vec d → ℚ
  argsort : List ℚ → List Nat
  randint : Nat → Nat → Nat
  rand : Nat → ℚ
  argsort_perm : ∀ l, (argsort l).Perm (List.range l.length)
  randint_lt : ∀ pos k, 0 < k → randint pos k < k
  rand_mem : ∀ pos, 0 ≤ rand pos ∧ rand pos < 1

/-- `euclidean_distances(A, B)`: one row per element of `A`. -/
def distances (S : Src d) (A B : List (Vec d)) : List (List ℚ) := A.map fun a => B.map fun b => S.dist a b

/-- `online_smote` (259-272): the sample and the number of draws so far. -/
def onlineSmote (S : Src d) (ps : List (Vec d)) (pos : Nat) : Except PyErr (Vec d × Nat) :=
  match ps.getLast? with
  | none => .error .indexError
  | some x =>
    if ps.length > 1 then
      match (distances S ps.dropLast [x])[0]? with
      | none => .error .indexError
      | some distanceVector =>
        let neighbors := S.argsort distanceVector
        let k := if 5 > neighbors.length then neighbors.length else 5
        let i := S.randint pos k
        let gamma := S.rand (pos + 1)
        match neighbors[i]? with
        | none => .error .indexError
        | some q =>
          match ps[q]? with
          | none => .error .indexError
          | some p => .ok (x + gamma • (x - p), pos + 2)
    else .ok (x, pos)

/-- The loop over the synthetic samples (214-217); returns them too. -/
def synthN (S : Src d) (b : Base σ (Vec d)) (c : Call (Vec d)) (y : Int) (ps : List (Vec d)) :
    Nat → σ → Nat → Except PyErr (List (Vec d) × σ × Nat)
  | 0, s, pos => .ok ([], s, pos)
  | k + 1, s, pos =>
    match onlineSmote S ps pos with
    | .error e => .error e
    | .ok (x, pos') =>
      match b.fit s x y c.classes c.weights with
      | .error e => .error e
      | .ok s' =>
        match synthN S b c y ps k s' pos' with
        | .error e => .error e
        | .ok (xs, r) => .ok (x :: xs, r)

/-- What happened when a member was shown a sample: trained `k` times on it (draw of rate `rate`) and
on the synthetic samples `synth` (as many as a draw of rate `rateS`, for positive samples). -/
structure Visit (d : Nat) where
  i : Nat
  x : Vec d
  y : Int
  rate : ℚ
  k : Nat
  rateS : Option ℚ
  synth : List (Vec d)

/-- The ensemble: `E` provides learner, detector, Poisson draws (its scheme is not used). -/
structure Ens (σ δ : Type) (d : Nat) where
  E : Env σ δ (Vec d) Unit Unit
  S : Src d
  sr : ℚ

/-- Training one member on one sample (203-223); `ps` is `pos_samples`. -/
def teach (W : Ens σ δ d) (c : Call (Vec d)) (x : Vec d) (y : Int) (n i : Nat) (s : σ) (ps : List (Vec d)) (pos : Nat) :
    Except PyErr (Visit d × σ × List (Vec d) × Nat) :=
  if y = 1 then
    let a : ℚ := ((i : ℚ) + 1) / n
    let ps' := ps ++ [x]
    let lam := a * W.sr
    let lamS := (1 - a) * W.sr
    let k := W.E.poisson pos lam
    match trainN W.E.b c x y k s with
    | .error e => .error e
    | .ok s1 =>
      let ks := W.E.poisson (pos + 1) lamS
      match synthN W.S W.E.b c y ps' ks s1 (pos + 2) with
      | .error e => .error e
      | .ok (xs, s2, pos') => .ok (⟨i, x, y, lam, k, some lamS, xs⟩, s2, ps', pos')
  else
    let k := W.E.poisson pos 1
    match trainN W.E.b c x y k s with
    | .error e => .error e
    | .ok s1 => .ok (⟨i, x, y, 1, k, none, []⟩, s1, ps, pos + 1)

/-- The loop over the members (202-239). -/
def visitAll (W : Ens σ δ d) (c : Call (Vec d)) (x : Vec d) (y : Int) (n : Nat) :
    List (M σ δ Unit) → Nat → List (Vec d) → Nat → Bool → Except PyErr (List (Visit d) × List (M σ δ Unit) × List (Vec d) × Nat × Bool)
  | [], _, ps, pos, change => .ok ([], [], ps, pos, change)
  | m :: ms, i, ps, pos, change =>
    match teach W c x y n i m.learner ps pos with
    | .error e => .error e
    | .ok (v, s, ps', pos') =>
      match watch W.E c s m.det change with
      | .error e => .error e
      | .ok (a, change') =>
        match visitAll W c x y n ms (i + 1) ps' pos' change' with
        | .error e => .error e
        | .ok (vs, ms', r) => .ok (v :: vs, ⟨s, a, ()⟩ :: ms', r)

/-- The state of the ensemble. -/
structure St (σ δ : Type) (d : Nat) where
  members : List (M σ δ Unit)
  ps : List (Vec d)
  classes : Option (List Int)
  pos : Nat

/-- One row (199-250). -/
def trainRow (W : Ens σ δ d) (c : Call (Vec d)) (x : Vec d) (y : Int) (s : St σ δ d) : Except PyErr (List (Visit d) × St σ δ d) :=
  match visitAll W c x y s.members.length s.members 0 s.ps s.pos false with
  | .error e => .error e
  | .ok (vs, ms, ps, pos, change) =>
    .ok (vs, { s with members := if change && W.E.drift then react W.E ms else ms, ps := ps, pos := pos })

/-- All rows. -/
def trainRows (W : Ens σ δ d) (c : Call (Vec d)) : List (Vec d × Int) → St σ δ d → Except PyErr (List (Visit d) × St σ δ d)
  | [], s => .ok ([], s)
  | r :: rows, s =>
    match trainRow W c r.1 r.2 s with
    | .error e => .error e
    | .ok (vs, s') =>
      match trainRows W c rows s' with
      | .error e => .error e
      | .ok (vs', s'') => .ok (vs ++ vs', s'')

/-- `__adjust_ensemble_size` (252-258). -/
def adjust (W : Ens σ δ d) (classes : List Int) (ms : List (M σ δ Unit)) : List (M σ δ Unit) :=
  if classes.length > ms.length then ms ++ List.replicate (classes.length - ms.length) ⟨W.E.b.init, W.E.d.new, ()⟩ else ms

/-- `partial_fit` (181-250). -/
def partialFit (W : Ens σ δ d) (c : Call (Vec d)) (s : St σ δ d) : Except PyErr (List (Visit d) × St σ δ d) :=
  match checkClasses s.classes c.classes with
  | .error e => .error e
  | .ok known => trainRows W c c.rows { s with members := adjust W known s.members, classes := some known }

/-- `__configure` (128-139). -/
def fresh (W : Ens σ δ d) (n : Nat) : St σ δ d := ⟨List.replicate n ⟨W.E.b.init, W.E.d.new, ()⟩, [], none, 0⟩

/-- Successive calls of `partial_fit`. -/
def run (W : Ens σ δ d) : List (Call (Vec d)) → St σ δ d → Except PyErr (List (Visit d) × St σ δ d)
  | [], s => .ok ([], s)
  | c :: cs, s =>
    match partialFit W c s with
    | .error e => .error e
    | .ok (vs, s') =>
      match run W cs s' with
      | .error e => .error e
      | .ok (vs', s'') => .ok (vs ++ vs', s'')

/-! ### The synthetic sample -/

/-- The row `[0]` of the distance matrix has one entry, so the neighbour is the first positive sample
ever seen. -/
theorem smote_first (S : Src d) (ps : List (Vec d)) (p : Vec d) (hp : ps.head? = some p) (x : Vec d) (hx : ps.getLast? = some x) (pos : Nat) :
    ∃ (g : ℚ) (pos' : Nat), 0 ≤ g ∧ g < 1 ∧ onlineSmote S ps pos = .ok (x + g • (x - p), pos') := by
  unfold onlineSmote
  rw [hx]
  simp only []
  cases ps with
  | nil => simp at hp
  | cons p0 tl =>
    simp only [List.head?_cons, Option.some.injEq] at hp
    subst hp
    cases tl with
    | nil =>
      simp only [List.getLast?_singleton, Option.some.injEq] at hx
      subst hx
      refine ⟨0, pos, le_refl _, zero_lt_one, ?_⟩
      simp
    | cons q tl =>
      have hlen : (p0 :: q :: tl).length > 1 := by simp
      rw [if_pos hlen]
      have hdl : (p0 :: q :: tl).dropLast = p0 :: (q :: tl).dropLast := by simp
      have hrow : (distances S (p0 :: q :: tl).dropLast [x])[0]? = some [S.dist p0 x] := by rw [hdl]; rfl
      rw [hrow]
      simp only []
      have hperm := S.argsort_perm [S.dist p0 x]
      have hn : S.argsort [S.dist p0 x] = [0] := by
        have : List.range [S.dist p0 x].length = [0] := rfl
        rw [this] at hperm
        exact List.perm_singleton.mp hperm
      rw [hn]
      have hi : S.randint pos 1 = 0 := by have := S.randint_lt pos 1 one_pos; omega
      simp only [List.length_singleton, show (5 : Nat) > 1 from by decide, if_true, hi, List.getElem?_cons_zero]
      exact ⟨S.rand (pos + 1), pos + 2, (S.rand_mem _).1, (S.rand_mem _).2, rfl⟩

theorem synthN_ok (S : Src d) (b : Base σ (Vec d)) (c : Call (Vec d)) (hb : b.Takes c) (y : Int) (ps : List (Vec d)) (p : Vec d)
    (hp : ps.head? = some p) (x : Vec d) (hx : ps.getLast? = some x) (k : Nat) (s : σ) (pos : Nat) :
    ∃ xs s' pos', synthN S b c y ps k s pos = .ok (xs, s', pos') ∧ xs.length = k ∧
      ∀ z ∈ xs, ∃ g : ℚ, 0 ≤ g ∧ g < 1 ∧ z = x + g • (x - p) := by
  induction k generalizing s pos with
  | zero => exact ⟨[], s, pos, rfl, rfl, by simp⟩
  | succ k ih =>
    obtain ⟨g, pos1, g0, g1, h1⟩ := smote_first S ps p hp x hx pos
    obtain ⟨s1, h2⟩ := hb.1 s (x + g • (x - p)) y
    obtain ⟨xs, s', pos', h3, h4, h5⟩ := ih s1 pos1
    refine ⟨(x + g • (x - p)) :: xs, s', pos', ?_, by simp [h4], ?_⟩
    · rw [synthN, h1]
      simp only [h2, h3]
    · intro z hz
      rcases List.mem_cons.mp hz with rfl | hz
      · exact ⟨g, g0, g1, rfl⟩
      · exact h5 z hz

/-- How a member should be trained on a sample: for a positive sample, a draw of rate `a · sr` on the
sample and a draw of rate `(1 - a) · sr` on synthetic samples, `a = (i + 1) / n`; for the others a draw
of rate 1.  The synthetic samples are where the code puts them: on the line through the sample and
the first positive sample, beyond the sample. -/
def Visit.Fine (W : Ens σ δ d) (n : Nat) (first : Option (Vec d)) (v : Visit d) : Prop :=
  (v.y = 1 → v.rate = ((v.i : ℚ) + 1) / n * W.sr ∧ v.rateS = some ((1 - ((v.i : ℚ) + 1) / n) * W.sr) ∧
    (∃ q, v.k = W.E.poisson q v.rate) ∧ (∃ q, v.synth.length = W.E.poisson q ((1 - ((v.i : ℚ) + 1) / n) * W.sr)) ∧
    ∃ p, first = some p ∧ ∀ z ∈ v.synth, ∃ g : ℚ, 0 ≤ g ∧ g < 1 ∧ z = v.x + g • (v.x - p)) ∧
  (v.y ≠ 1 → v.rate = 1 ∧ v.rateS = none ∧ (∃ q, v.k = W.E.poisson q 1) ∧ v.synth = [])

theorem teach_ok (W : Ens σ δ d) (c : Call (Vec d)) (hb : W.E.b.Takes c) (x : Vec d) (y : Int) (n i : Nat) (s : σ) (ps : List (Vec d))
    (pos : Nat) (first : Option (Vec d)) (hf : y = 1 → (ps ++ [x]).head? = first) :
    ∃ v s' ps' pos', teach W c x y n i s ps pos = .ok (v, s', ps', pos') ∧ v.i = i ∧ v.x = x ∧ v.y = y ∧ v.Fine W n first ∧
      ps' = if y = 1 then ps ++ [x] else ps := by
  unfold teach
  by_cases hy : y = 1
  · simp only [if_pos hy]
    obtain ⟨s1, h1⟩ := trainN_ok W.E.b c hb x y (W.E.poisson pos (((i : ℚ) + 1) / n * W.sr)) s
    obtain ⟨p, hp⟩ : ∃ p, (ps ++ [x]).head? = some p := by cases ps <;> simp
    obtain ⟨xs, s2, pos', h2, h3, h4⟩ := synthN_ok W.S W.E.b c hb y (ps ++ [x]) p hp x (by simp)
      (W.E.poisson (pos + 1) ((1 - ((i : ℚ) + 1) / n) * W.sr)) s1 (pos + 2)
    simp only [h1, h2]
    refine ⟨_, _, _, _, rfl, rfl, rfl, rfl, ⟨fun _ => ⟨rfl, rfl, ⟨pos, rfl⟩, ⟨pos + 1, h3⟩, p, ?_, h4⟩, fun h => absurd hy h⟩, rfl⟩
    rw [← hf hy, hp]
  · simp only [if_neg hy]
    obtain ⟨s1, h1⟩ := trainN_ok W.E.b c hb x y (W.E.poisson pos 1) s
    simp only [h1]
    exact ⟨_, _, _, _, rfl, rfl, rfl, rfl, ⟨fun h => absurd h hy, fun _ => ⟨rfl, rfl, ⟨pos, rfl⟩, rfl⟩⟩, rfl⟩

theorem visitAll_ok (W : Ens σ δ d) (c : Call (Vec d)) (hb : W.E.b.Takes c) (x : Vec d) (y : Int) (n : Nat) (ms : List (M σ δ Unit)) (i : Nat)
    (ps : List (Vec d)) (pos : Nat) (ch : Bool) (first : Option (Vec d)) (hf : y = 1 → (ps ++ [x]).head? = first) :
    ∃ vs ms' ps' pos' ch', visitAll W c x y n ms i ps pos ch = .ok (vs, ms', ps', pos', ch') ∧ ms'.length = ms.length ∧
      vs.map (fun v => (v.i, v.x, v.y)) = (List.range' i ms.length).map (fun j => (j, x, y)) ∧ (∀ v ∈ vs, v.Fine W n first) ∧
      ps' = ps ++ if y = 1 then List.replicate ms.length x else [] := by
  induction ms generalizing i ps pos ch with
  | nil => exact ⟨[], [], ps, pos, ch, rfl, rfl, rfl, by simp, by simp⟩
  | cons m ms ih =>
    obtain ⟨v, s', ps1, pos1, h1, h2, h3, h4, h5, h6⟩ := teach_ok W c hb x y n i m.learner ps pos first hf
    obtain ⟨⟨a, ch1⟩, h7⟩ := watch_ok W.E c hb s' m.det ch
    obtain ⟨vs, ms', ps', pos', ch', e1, e2, e3, e4, e5⟩ := ih (i + 1) ps1 pos1 ch1 (by
      intro hy
      rw [h6, if_pos hy, ← hf hy]
      cases ps <;> simp)
    refine ⟨v :: vs, ⟨s', a, ()⟩ :: ms', ps', pos', ch', ?_, by simp [e2], ?_, ?_, ?_⟩
    · rw [visitAll, h1]
      simp only [h7, e1]
    · simp only [List.map_cons, List.length_cons, List.range'_succ, e3, h2, h3, h4]
    · intro w hw
      rcases List.mem_cons.mp hw with rfl | hw
      · exact h5
      · exact e4 w hw
    · rw [e5, h6]
      by_cases hy : y = 1
      · simp [hy, List.replicate_succ]
      · simp [hy]

/-- The first positive sample of a list of rows. -/
def firstPos (rows : List (Vec d × Int)) : Option (Vec d) := (rows.find? fun r => decide (r.2 = 1)).map Prod.fst

/-- The positive samples, each as often as there are members. -/
def memory (n : Nat) (rows : List (Vec d × Int)) : List (Vec d) := rows.flatMap fun r => if r.2 = 1 then List.replicate n r.1 else []

theorem memory_head (n : Nat) (hn : 0 < n) (rows : List (Vec d × Int)) : (memory n rows).head? = firstPos rows := by
  induction rows with
  | nil => rfl
  | cons r rows ih =>
    obtain ⟨k, rfl⟩ : ∃ k, n = k + 1 := ⟨n - 1, by omega⟩
    by_cases hy : r.2 = 1
    · simp [memory, firstPos, hy, List.replicate_succ]
    · have h1 : memory (k + 1) (r :: rows) = memory (k + 1) rows := by simp [memory, hy]
      have h2 : firstPos (r :: rows) = firstPos rows := by simp [firstPos, hy]
      rw [h1, h2, ih]

theorem firstPos_append (rows : List (Vec d × Int)) (more : List (Vec d × Int)) (p : Vec d) (h : firstPos rows = some p) :
    firstPos (rows ++ more) = some p := by
  unfold firstPos at h ⊢
  rw [List.find?_append]
  cases hf : rows.find? (fun r => decide (r.2 = 1)) with
  | none => rw [hf] at h; simp at h
  | some q => rw [hf] at h; simpa using h

theorem Visit.Fine.mono {W : Ens σ δ d} {n : Nat} {rows : List (Vec d × Int)} {v : Visit d} (h : v.Fine W n (firstPos rows))
    (more : List (Vec d × Int)) : v.Fine W n (firstPos (rows ++ more)) := by
  refine ⟨fun hy => ?_, h.2⟩
  obtain ⟨h1, h2, h3, h4, p, h5, h6⟩ := h.1 hy
  exact ⟨h1, h2, h3, h4, p, firstPos_append rows more p h5, h6⟩

/-- The state after `rows` were learned, with the visits made. -/
structure Done (W : Ens σ δ d) (n : Nat) (rows : List (Vec d × Int)) (vs : List (Visit d)) (s : St σ δ d) : Prop where
  len : s.members.length = n
  ps : s.ps = memory n rows
  order : vs.map (fun v => (v.i, v.x, v.y)) = rows.flatMap fun r => (List.range n).map fun j => (j, r.1, r.2)
  fine : ∀ v ∈ vs, v.Fine W n (firstPos rows)

theorem trainRow_ok (W : Ens σ δ d) (c : Call (Vec d)) (hb : W.E.b.Takes c) (n : Nat) (hn : 0 < n) (rows : List (Vec d × Int)) (vs : List (Visit d))
    (s : St σ δ d) (h : Done W n rows vs s) (r : Vec d × Int) :
    ∃ vs' s', trainRow W c r.1 r.2 s = .ok (vs', s') ∧ Done W n (rows ++ [r]) (vs ++ vs') s' ∧ s'.classes = s.classes := by
  have hmem : memory n (rows ++ [r]) = memory n rows ++ (if r.2 = 1 then List.replicate n r.1 else []) := by simp [memory]
  obtain ⟨vs', ms, ps', pos', ch, e1, e2, e3, e4, e5⟩ := visitAll_ok W c hb r.1 r.2 s.members.length s.members 0 s.ps s.pos false
    (firstPos (rows ++ [r])) (by
      intro hy
      rw [← memory_head n hn, hmem, if_pos hy, h.ps]
      obtain ⟨k, rfl⟩ : ∃ k, n = k + 1 := ⟨n - 1, by omega⟩
      cases memory (k + 1) rows <;> simp [List.replicate_succ])
  unfold trainRow
  rw [e1]
  refine ⟨vs', _, rfl, ⟨?_, ?_, ?_, ?_⟩, rfl⟩
  · simp only []
    by_cases hc : (ch && W.E.drift) = true
    · rw [if_pos hc, react_length, e2, h.len]
    · rw [if_neg hc, e2, h.len]
  · show ps' = _
    rw [e5, hmem, h.ps, h.len]
  · rw [List.map_append, h.order, e3, List.flatMap_append, h.len]
    simp [List.range_eq_range']
  · intro v hv
    rcases List.mem_append.mp hv with hv | hv
    · exact (h.fine v hv).mono [r]
    · have := e4 v hv
      rwa [h.len] at this

theorem trainRows_ok (W : Ens σ δ d) (c : Call (Vec d)) (hb : W.E.b.Takes c) (n : Nat) (hn : 0 < n) (rs rows : List (Vec d × Int))
    (vs : List (Visit d)) (s : St σ δ d) (h : Done W n rows vs s) :
    ∃ vs' s', trainRows W c rs s = .ok (vs', s') ∧ Done W n (rows ++ rs) (vs ++ vs') s' ∧ s'.classes = s.classes := by
  induction rs generalizing rows vs s with
  | nil => exact ⟨[], s, rfl, by simpa using h, rfl⟩
  | cons r rs ih =>
    obtain ⟨vs1, s1, h1, h2, h3⟩ := trainRow_ok W c hb n hn rows vs s h r
    obtain ⟨vs2, s2, h4, h5, h6⟩ := ih _ _ s1 h2
    refine ⟨vs1 ++ vs2, s2, ?_, by simpa using h5, by rw [h6, h3]⟩
    rw [trainRows, h1]
    simp only [h4]

theorem run_ok (W : Ens σ δ d) (n : Nat) (hn : 0 < n) (known : List Int) (hk : known.length ≤ n) (cs : List (Call (Vec d)))
    (hb : ∀ c ∈ cs, W.E.b.Takes c) (hc : ∀ c ∈ cs, c.Fits known) (rows : List (Vec d × Int))
    (vs : List (Visit d)) (s : St σ δ d) (h : Done W n rows vs s) (hs : s.classes = some known) :
    ∃ vs' s', run W cs s = .ok (vs', s') ∧ Done W n (rows ++ allRows cs) (vs ++ vs') s' := by
  induction cs generalizing rows vs s with
  | nil => exact ⟨[], s, rfl, by simpa [allRows] using h⟩
  | cons c cs ih =>
    have hadj : adjust W known s.members = s.members := by rw [adjust, if_neg (by have := h.len; omega)]
    obtain ⟨vs1, s1, h1, h2, h3⟩ := trainRows_ok W c (hb c List.mem_cons_self) n hn c.rows rows vs s h
    have hp : partialFit W c s = .ok (vs1, s1) := by
      unfold partialFit
      rw [hs, fits_check c known (hc c List.mem_cons_self)]
      simp only [hadj]
      rw [← hs]
      exact h1
    obtain ⟨vs2, s2, h4, h5⟩ := ih (fun c' h' => hb c' (List.mem_cons_of_mem _ h')) (fun c' h' => hc c' (List.mem_cons_of_mem _ h'))
      _ _ s1 h2 (by rw [h3, hs])
    refine ⟨vs1 ++ vs2, s2, ?_, by simpa [allRows] using h5⟩
    rw [run, hp]
    simp only [h4]

/-- C184 (partial): SMOTE bagging with at least one member or class: training never fails; row after
row every member is shown the sample once; it is trained on the sample and on synthetic samples by
Poisson draws of the rates of the algorithm; and every synthetic sample is a point
`x + g (x - p)`, `0 ≤ g < 1`, where `x` is the sample shown and `p` the first positive sample of the
stream.  Missing (see the violations): `p` should be one of the nearest positive samples, and the point
between `x` and `p`; positive samples should be remembered once, not once per member. -/
theorem C184_smote_partial (W : Ens σ δ d) (hb : W.E.b.Total) (n : Nat) (known : List Int) (hn : 0 < max n known.length)
    (c : Call (Vec d)) (hc1 : c.classes = some known) (cs : List (Call (Vec d))) (hc : ∀ c ∈ cs, c.Fits known) :
    ∃ vs s, run W (c :: cs) (fresh W n) = .ok (vs, s) ∧ s.members.length = max n known.length ∧
      vs.map (fun v => (v.i, v.x, v.y)) =
        ((c :: cs).flatMap Call.rows).flatMap (fun r => (List.range s.members.length).map fun j => (j, r.1, r.2)) ∧
      ∀ v ∈ vs, v.Fine W s.members.length (firstPos ((c :: cs).flatMap Call.rows)) := by
  set s0 : St σ δ d := { fresh W n with members := adjust W known (fresh W n).members, classes := some known } with hs0
  have hlen : s0.members.length = max n known.length := by
    show (adjust W known (List.replicate n _)).length = _
    unfold adjust
    by_cases h : known.length > (List.replicate n (⟨W.E.b.init, W.E.d.new, ()⟩ : M σ δ Unit)).length
    · rw [if_pos h]; simp at h ⊢; omega
    · rw [if_neg h]; simp at h ⊢; omega
  have hd : Done W (max n known.length) [] [] s0 := ⟨hlen, rfl, rfl, by simp⟩
  obtain ⟨vs1, s1, h1, h2, h3⟩ := trainRows_ok W c (hb.takes c) _ hn c.rows [] [] s0 hd
  have hp : partialFit W c (fresh W n) = .ok (vs1, s1) := by
    unfold partialFit
    have : checkClasses (fresh W n).classes c.classes = .ok known := by rw [hc1]; rfl
    rw [this]
    exact h1
  obtain ⟨vs2, s2, h4, h5⟩ := run_ok W _ hn known (by omega) cs (fun c' _ => hb.takes c') hc _ _ s1 h2 (by rw [h3])
  have hrun : run W (c :: cs) (fresh W n) = .ok (vs1 ++ vs2, s2) := by
    rw [run, hp]
    simp only [h4]
  refine ⟨vs1 ++ vs2, s2, hrun, h5.len, ?_, ?_⟩
  · rw [h5.len]
    have := h5.order
    simpa [allRows] using this
  · rw [h5.len]
    have := h5.fine
    simpa [allRows] using this

/-- C184 (violated): the positive samples are remembered once per member: afterwards `pos_samples` has as
many entries as positive samples times members. -/
theorem C184_memory_violated (W : Ens σ δ d) (hb : W.E.b.Total) (n : Nat) (known : List Int) (hn : 0 < n) (hk : known.length ≤ n)
    (c : Call (Vec d)) (hc1 : c.classes = some known) :
    ∃ vs s, run W [c] (fresh W n) = .ok (vs, s) ∧ s.ps.length = n * c.rows.countP (fun r => decide (r.2 = 1)) := by
  have hd : Done W n [] [] ({ fresh W n with classes := some known } : St σ δ d) := ⟨by simp [fresh], rfl, rfl, by simp⟩
  obtain ⟨vs1, s1, h1, h2, _⟩ := trainRows_ok W c (hb.takes c) n hn c.rows [] [] _ hd
  have hadj : adjust W known (fresh W n).members = (fresh W n).members := by rw [adjust, if_neg (by simpa [fresh] using hk)]
  have hp : partialFit W c (fresh W n) = .ok (vs1, s1) := by
    unfold partialFit
    have : checkClasses (fresh W n).classes c.classes = .ok known := by rw [hc1]; rfl
    rw [this]
    simp only [hadj]
    exact h1
  refine ⟨vs1, s1, by simp [run, hp], ?_⟩
  rw [h2.ps, List.nil_append]
  generalize c.rows = rows
  induction rows with
  | nil => simp [memory]
  | cons r rows ih =>
    have : memory n (r :: rows) = (if r.2 = 1 then List.replicate n r.1 else []) ++ memory n rows := rfl
    rw [this, List.length_append, ih]
    by_cases hy : r.2 = 1
    · simp [hy, Nat.mul_add, Nat.add_comm]
    · simp [hy]

/-- C184 (violated): a synthetic sample never lies strictly between the newest positive sample and the
neighbour used: if they differ and the random factor is not 0, it lies beyond the newest sample. -/
theorem C184_beyond_violated (S : Src d) (ps : List (Vec d)) (p : Vec d) (hp : ps.head? = some p) (x : Vec d) (hx : ps.getLast? = some x)
    (pos : Nat) (j : Fin d) (hj : p j < x j) :
    ∃ z pos', onlineSmote S ps pos = .ok (z, pos') ∧ x j ≤ z j := by
  obtain ⟨g, pos', g0, g1, h⟩ := smote_first S ps p hp x hx pos
  refine ⟨_, pos', h, ?_⟩
  have : 0 ≤ g * (x j - p j) := mul_nonneg g0 (by linarith)
  simpa [smul_eq_mul] using this

/-- C184 (violated): the neighbour need not be near: however many positive samples `q` arrived in between, at
whatever distance, the synthetic sample does not depend on them. -/
theorem C184_neighbour_violated (S : Src d) (p x : Vec d) (mid mid' : List (Vec d)) (pos : Nat) (hm : mid ≠ []) (hm' : mid' ≠ []) :
    onlineSmote S (p :: mid ++ [x]) pos = onlineSmote S (p :: mid' ++ [x]) pos := by
  have key : ∀ mid : List (Vec d), mid ≠ [] → onlineSmote S (p :: mid ++ [x]) pos = .ok (x + S.rand (pos + 1) • (x - p), pos + 2) := by
    intro mid hm
    unfold onlineSmote
    have hlast : (p :: mid ++ [x]).getLast? = some x := by rw [List.getLast?_append]; rfl
    rw [hlast]
    simp only []
    rw [if_pos (by simp)]
    have hdl : (p :: mid ++ [x]).dropLast = p :: mid := List.dropLast_concat
    have hrow : (distances S (p :: mid ++ [x]).dropLast [x])[0]? = some [S.dist p x] := by rw [hdl]; rfl
    rw [hrow]
    simp only []
    have hn : S.argsort [S.dist p x] = [0] := by
      have hperm := S.argsort_perm [S.dist p x]
      have : List.range [S.dist p x].length = [0] := rfl
      rw [this] at hperm
      exact List.perm_singleton.mp hperm
    rw [hn]
    have hi : S.randint pos 1 = 0 := by have := S.randint_lt pos 1 one_pos; omega
    simp only [List.length_singleton, show (5 : Nat) > 1 from by decide, if_true, hi, List.getElem?_cons_zero, List.cons_append]
  rw [key mid hm, key mid' hm']

/-- A source for the examples: squared distance, identity order, random factor one half. -/
def src : Src 1 where
  dist a b := (a 0 - b 0) * (a 0 - b 0)
  argsort l := List.range l.length
  randint _ _ := 0
  rand _ := 1 / 2
  argsort_perm _ := List.Perm.refl _
  randint_lt _ _ h := h
  rand_mem _ := by norm_num

/-- Newest sample 11, five others at 10, the first at 0: the synthetic sample is 16.5. -/
example : (onlineSmote src [![0], ![10], ![10], ![10], ![10], ![10], ![11]] 0).toOption.map (fun r => r.1 0) = some (33 / 2) := by decide +kernel

/-- A total base learner and an ensemble to which the theorems apply. -/
example : ∃ W : Ens Int Nat 1, W.E.b.Total :=
  ⟨⟨⟨underOver 1, ⟨0, fun s _ _ _ _ => .ok s, fun s xs => .ok (xs.map fun _ => some s), fun s => s⟩, quiet, true, fun _ _ => 1⟩, src, 1⟩,
    fun s _ _ _ _ => ⟨s, rfl⟩, fun s xs => ⟨xs.map fun _ => some s, rfl, by simp⟩⟩

end Verif.Meta.Skew.Smote
