import Verif.Common
import Mathlib.Data.Multiset.AddSub
import Mathlib.Data.Multiset.Filter
import Mathlib.Data.List.Perm.Basic

/-!
Model of `data/time_manager.py` and C23, C53.

Simplifications: the pandas data frame is a list of samples; `sort_values`
(quicksort, not stable) is any function that returns a permutation sorted by
`available_time`.  Index labels and the datetime conversion of the empty columns
(33-35) are not modelled.
-/

namespace Verif.Streams.TM

/-- One row of the queue, `_COLUMN_NAMES`, line 19; `payload` is X, y_true, y_pred. -/
structure Row (τ π ω : Type) where
  payload : π
  weight : Option ω
  arrival : τ
  available : τ

/-- `TimeManager`, lines 20-31. -/
structure State (τ π ω : Type) where
  timestamp : τ
  queue : List (Row τ π ω)
  useWeight : Bool

variable {τ π ω : Type} [LinearOrder τ]

/-- `__init__`, lines 22-31. -/
def init (t : τ) : State τ π ω := ⟨t, [], true⟩

/-- `update_timestamp`, lines 53-67. -/
def updateTimestamp (s : State τ π ω) (t : τ) : State τ π ω := { s with timestamp := t }

/-- `get_available_samples`, lines 69-91. -/
def getAvailable (s : State τ π ω) : List (Row τ π ω) × State τ π ω :=
  (s.queue.filter fun r => r.available ≤ s.timestamp,
   { s with queue := s.queue.filter fun r => r.available > s.timestamp })

/-- `update_queue`, lines 93-106: `none` for `sample_weight=None`. -/
def updateQueue (sort : List (Row τ π ω) → List (Row τ π ω)) (s : State τ π ω)
    (batch : List (π × τ × τ)) (weights : Option (List ω)) : State τ π ω :=
  match weights with
  | none =>
    { s with
      useWeight := false
      queue := sort (s.queue ++ batch.map fun b => ⟨b.1, none, b.2.1, b.2.2⟩) }
  | some ws =>
    { s with
      queue := sort (s.queue ++ (batch.zip ws).map fun b => ⟨b.1.1, some b.2, b.1.2.1, b.1.2.2⟩) }

/-- `_cleanup_samples`, lines 42-51. -/
def cleanup (q : List (Row τ π ω)) (batch : Nat) : List (Row τ π ω) :=
  if (q.length : Int) - batch ≥ 0 then q.drop batch else q.take 0

/-- `next_sample`, lines 120-156: the samples taken; `samples["weight"]` (150)
names a column that does not exist, so it raises when weights are in use. -/
def nextSample (s : State τ π ω) (batch : Nat) :
    Except PyErr (List (Row τ π ω) × State τ π ω) :=
  let samples := if (s.queue.length : Int) - batch ≥ 0 then s.queue.take batch else s.queue
  if s.useWeight then .error .keyError
  else .ok (samples, { s with queue := cleanup s.queue batch })

/-- `has_more_samples`, lines 108-118. -/
def hasMore (s : State τ π ω) : Bool := s.queue.length > 0

/-! ### Specification -/

/-- `sort` behaves like `sort_values(by='available_time')`. -/
def Sorts (sort : List (Row τ π ω) → List (Row τ π ω)) : Prop :=
  ∀ q, (sort q).Perm q ∧ (sort q).Pairwise fun a b => a.available ≤ b.available

/-- Calls made by the evaluator. -/
inductive Call (τ π : Type) where
  | advance (t : τ)
  | enqueue (batch : List (π × τ × τ))
  | available
  | next (batch : Nat)

/-- One unweighted call: rows returned, and the new state. -/
def step (sort : List (Row τ π ω) → List (Row τ π ω)) (s : State τ π ω) :
    Call τ π → Except PyErr (List (Row τ π ω) × State τ π ω)
  | .advance t => .ok ([], updateTimestamp s t)
  | .enqueue b => .ok ([], updateQueue sort s b none)
  | .available => .ok (getAvailable s)
  | .next n => nextSample s n

/-- Rows returned so far (in order) and the state. -/
def run (sort : List (Row τ π ω) → List (Row τ π ω)) :
    List (Call τ π) → State τ π ω → List (Row τ π ω) → Except PyErr (List (Row τ π ω) × State τ π ω)
  | [], s, acc => .ok (acc, s)
  | c :: cs, s, acc => do
    let (out, s') ← step sort s c
    run sort cs s' (acc ++ out)

/-- Specification: all samples queued by the calls. -/
def queued : List (Call τ π) → List (Row τ π ω)
  | [] => []
  | .enqueue b :: cs => b.map (fun b => ⟨b.1, none, b.2.1, b.2.2⟩) ++ queued cs
  | _ :: cs => queued cs

theorem cleanup_eq (q : List (Row τ π ω)) (n : Nat) : cleanup q n = q.drop n := by
  unfold cleanup
  split
  · rfl
  · rw [List.drop_of_length_le (by omega)]; rfl

theorem taken_eq (q : List (Row τ π ω)) (n : Nat) :
    (if (q.length : Int) - n ≥ 0 then q.take n else q) = q.take n := by
  split
  · rfl
  · rw [List.take_of_length_le (by omega)]

theorem filter_split (q : List (Row τ π ω)) (t : τ) :
    ((q.filter fun r => r.available ≤ t) ++ q.filter fun r => r.available > t).Perm q := by
  have := List.filter_append_perm (fun r : Row τ π ω => decide (r.available ≤ t)) q
  have e : (fun r : Row τ π ω => decide (r.available > t)) = fun r => !decide (r.available ≤ t) := by
    funext r
    by_cases h : r.available ≤ t
    · simp [h]
    · simp [h, lt_of_not_ge h]
  rw [e]; exact this

/-- Queue invariant: sorted by availability. -/
def Ordered (s : State τ π ω) : Prop := s.queue.Pairwise fun a b => a.available ≤ b.available

/-- What one call does in a state with an ordered queue. -/
theorem step_spec {sort : List (Row τ π ω) → List (Row τ π ω)} (hs : Sorts sort) (s : State τ π ω)
    (ho : Ordered s) (c : Call τ π) (hw : s.useWeight = false ∨ s.queue = [] ∧ ∀ n, c ≠ .next n) :
    ∃ out s', step sort s c = .ok (out, s') ∧ Ordered s' ∧
      (out ++ s'.queue).Perm (s.queue ++ queued [c]) ∧
      (s'.useWeight = false ∨ s'.queue = [] ∧ s.useWeight = true) := by
  cases c with
  | advance t =>
    refine ⟨[], _, rfl, ho, by simp [queued, updateTimestamp], ?_⟩
    rcases hw with h | ⟨h, _⟩
    · exact .inl h
    · by_cases hu : s.useWeight = true
      · exact .inr ⟨h, hu⟩
      · exact .inl (by simpa [updateTimestamp] using hu)
  | enqueue b =>
    refine ⟨[], _, rfl, (hs _).2, ?_, .inl rfl⟩
    simp only [updateQueue, queued, List.nil_append, List.append_nil]
    exact (hs _).1
  | available =>
    refine ⟨_, _, rfl, ho.filter _, ?_, ?_⟩
    · simp only [queued, List.append_nil, getAvailable]
      exact filter_split _ _
    · rcases hw with h | ⟨h, _⟩
      · exact .inl h
      · by_cases hu : s.useWeight = true
        · exact .inr ⟨by simp [getAvailable, h], hu⟩
        · exact .inl (by simpa [getAvailable] using hu)
  | next n =>
    rcases hw with h | ⟨_, h⟩
    · refine ⟨s.queue.take n, { s with queue := s.queue.drop n }, ?_, ?_, ?_, .inl h⟩
      · simp only [step, nextSample, h, cleanup_eq, taken_eq]; rfl
      · exact List.Pairwise.sublist (List.drop_sublist n _) ho
      · simp [queued]
    · exact absurd rfl (h n)

/-- Calls in which something has been queued before the first `next_sample`. -/
def NextAfterQueue : List (Call τ π) → Prop
  | [] => True
  | .enqueue _ :: _ => True
  | .next _ :: _ => False
  | _ :: cs => NextAfterQueue cs

theorem run_spec {sort : List (Row τ π ω) → List (Row τ π ω)} (hs : Sorts sort) :
    ∀ (cs : List (Call τ π)) (s : State τ π ω) (acc : List (Row τ π ω)), Ordered s →
    (s.useWeight = false ∨ s.queue = [] ∧ NextAfterQueue cs) →
    ∃ out s', run sort cs s acc = .ok (out, s') ∧ Ordered s' ∧
      (out ++ s'.queue).Perm (acc ++ s.queue ++ queued cs) := by
  intro cs
  induction cs with
  | nil => intro s acc ho _; exact ⟨acc, s, rfl, ho, by simp [queued]⟩
  | cons c cs ih =>
    intro s acc ho hw
    obtain ⟨out, s', e, ho', hp, hu⟩ := step_spec hs s ho c (by
      rcases hw with h | ⟨h, h2⟩
      · exact .inl h
      · right
        refine ⟨h, ?_⟩
        intro n hn
        subst hn
        exact h2)
    have hw' : s'.useWeight = false ∨ s'.queue = [] ∧ NextAfterQueue cs := by
      rcases hu with h | ⟨h, h3⟩
      · exact .inl h
      · rcases hw with h4 | ⟨_, h4⟩
        · rw [h4] at h3; cases h3
        · cases c with
          | advance t => exact .inr ⟨h, h4⟩
          | enqueue b =>
            left
            simp only [step, updateQueue, Except.ok.injEq, Prod.mk.injEq] at e
            rw [← e.2]
          | available => exact .inr ⟨h, h4⟩
          | next n => exact absurd h4 (by simp [NextAfterQueue])
    obtain ⟨o, sf, e2, hof, hp2⟩ := ih s' (acc ++ out) ho' hw'
    refine ⟨o, sf, ?_, hof, ?_⟩
    · simp only [run, e, bind, Except.bind, e2]
    · refine hp2.trans ?_
      have hq : queued (ω := ω) (c :: cs) = queued [c] ++ queued cs := by
        cases c <;> simp [queued]
      rw [hq, List.append_assoc acc out, ← List.append_assoc (acc ++ s.queue)]
      refine List.Perm.append_right _ ?_
      rw [List.append_assoc acc]
      exact List.Perm.append_left acc hp

/-- C23: without weights, whatever the timestamps and the order of calls, the
samples handed back together with those still queued are exactly the samples
that were queued: nothing is lost and nothing is handed back twice. -/
theorem C23_exactly_once {sort : List (Row τ π ω) → List (Row τ π ω)} (hs : Sorts sort) (t : τ)
    (cs : List (Call τ π)) (hn : NextAfterQueue cs) :
    ∃ out s', run sort cs (init t) [] = .ok (out, s') ∧
      (out ++ s'.queue).Perm (queued cs) := by
  obtain ⟨o, s', e, _, hp⟩ := run_spec hs cs (init t : State τ π ω) [] .nil (.inr ⟨rfl, hn⟩)
  exact ⟨o, s', e, by simpa [init] using hp⟩

/-- C23: in every reachable state `get_available_samples` returns, in order of
availability, exactly the queued samples whose time has come: none early, and
none left behind. -/
theorem C23_available_is_exact {sort : List (Row τ π ω) → List (Row τ π ω)} (hs : Sorts sort) (t : τ)
    (cs : List (Call τ π)) (hn : NextAfterQueue cs) :
    ∃ out s', run sort cs (init t) [] = .ok (out, s') ∧
      let (got, s'') := getAvailable s'
      (∀ r ∈ got, r.available ≤ s'.timestamp) ∧ (∀ r ∈ s''.queue, s'.timestamp < r.available) ∧
      (got ++ s''.queue).Perm s'.queue ∧ got.Pairwise (fun a b => a.available ≤ b.available) := by
  obtain ⟨o, s', e, ho, _⟩ := run_spec hs cs (init t : State τ π ω) [] .nil (.inr ⟨rfl, hn⟩)
  refine ⟨o, s', e, ?_, ?_, filter_split _ _, List.Pairwise.filter _ ho⟩
  · intro r hr; simpa using (List.mem_filter.mp hr).2
  · intro r hr; simpa using (List.mem_filter.mp hr).2

/-- C23: in every reachable state with an unweighted queue, `next_sample(n)`
returns the `n` earliest samples (all if fewer), in order of availability. -/
theorem C23_next_is_earliest {sort : List (Row τ π ω) → List (Row τ π ω)} (hs : Sorts sort) (t : τ)
    (cs : List (Call τ π)) (hn : NextAfterQueue cs) (n : Nat) :
    ∃ out s', run sort cs (init t) [] = .ok (out, s') ∧
      (s'.useWeight = false → ∃ got s'', nextSample s' n = .ok (got, s'') ∧
        got.length = min n s'.queue.length ∧ (got ++ s''.queue) = s'.queue ∧
        (∀ a ∈ got, ∀ b ∈ s''.queue, a.available ≤ b.available) ∧
        got.Pairwise (fun a b => a.available ≤ b.available)) := by
  obtain ⟨o, s', e, ho, _⟩ := run_spec hs cs (init t : State τ π ω) [] .nil (.inr ⟨rfl, hn⟩)
  refine ⟨o, s', e, fun hw => ⟨s'.queue.take n, { s' with queue := s'.queue.drop n }, ?_, by simp,
    by simp, ?_, List.Pairwise.sublist (List.take_sublist n _) ho⟩⟩
  · simp only [nextSample, hw, cleanup_eq, taken_eq]; rfl
  · intro a ha b hb
    have : (s'.queue.take n ++ s'.queue.drop n).Pairwise (fun a b => a.available ≤ b.available) := by
      rw [List.take_append_drop]; exact ho
    exact (List.pairwise_append.mp this).2.2 a ha b hb

/-- C23: `has_more_samples` says whether more samples were queued than handed back. -/
theorem C23_has_more {sort : List (Row τ π ω) → List (Row τ π ω)} (hs : Sorts sort) (t : τ)
    (cs : List (Call τ π)) (hn : NextAfterQueue cs) :
    ∃ out s', run sort cs (init t) [] = .ok (out, s') ∧
      (hasMore s' = true ↔ out.length < (queued (ω := ω) cs).length) := by
  obtain ⟨o, s', e, hp⟩ := C23_exactly_once hs t cs hn
  refine ⟨o, s', e, ?_⟩
  have := hp.length_eq
  rw [List.length_append] at this
  simp only [hasMore, decide_eq_true_eq]
  omega

/-- C53: once every batch was queued with weights (and at the start, before
anything was queued), `next_sample` raises a `KeyError` for every batch size,
so queued samples cannot be retrieved with it. -/
theorem C53_weighted_next_raises (sort : List (Row τ π ω) → List (Row τ π ω)) (t : τ)
    (batches : List (List (π × τ × τ) × List ω)) (n : Nat) :
    nextSample (batches.foldl (fun s b => updateQueue sort s b.1 (some b.2)) (init t)) n =
      .error .keyError := by
  have h : ∀ (bs : List (List (π × τ × τ) × List ω)) (s : State τ π ω), s.useWeight = true →
      (bs.foldl (fun s b => updateQueue sort s b.1 (some b.2)) s).useWeight = true := by
    intro bs
    induction bs with
    | nil => intro s h; exact h
    | cons b bs ih => intro s h; exact ih _ h
  simp only [nextSample, h batches (init t) rfl, if_true]

/-- C53: weighted samples are not lost: at any time `get_available_samples`
hands back, each with its own payload, weight and times, exactly those whose
availability time has come. -/
theorem C53_weighted_available {sort : List (Row τ π ω) → List (Row τ π ω)} (hs : Sorts sort) (t now : τ)
    (batches : List (List (π × ω × τ × τ))) :
    let s := batches.foldl (fun s b =>
      updateQueue sort s (b.map fun x => (x.1, x.2.2.1, x.2.2.2)) (some (b.map fun x => x.2.1))) (init t)
    let (got, _) := getAvailable (updateTimestamp s now)
    got.Perm ((batches.flatten.filter fun x => x.2.2.2 ≤ now).map fun x =>
      { payload := x.1, weight := some x.2.1, arrival := x.2.2.1, available := x.2.2.2 }) := by
  have key : ∀ (bs : List (List (π × ω × τ × τ))) (s : State τ π ω),
      (bs.foldl (fun s b => updateQueue sort s (b.map fun x => (x.1, x.2.2.1, x.2.2.2))
        (some (b.map fun x => x.2.1))) s).queue.Perm (s.queue ++ bs.flatten.map fun x =>
      { payload := x.1, weight := some x.2.1, arrival := x.2.2.1, available := x.2.2.2 }) := by
    intro bs
    induction bs with
    | nil => intro s; simp
    | cons b bs ih =>
      intro s
      refine (ih _).trans ?_
      rw [List.flatten_cons, List.map_append, ← List.append_assoc]
      refine List.Perm.append_right _ ?_
      refine (hs _).1.trans ?_
      rw [List.zip_map', List.map_map]
      exact List.Perm.refl _
  have h := (key batches (init t : State τ π ω)).filter fun r => r.available ≤ now
  simp only [init, List.nil_append, List.filter_map] at h
  exact h

/-- A sort that satisfies the hypothesis (insertion by availability time). -/
def insertRow (r : Row τ π ω) : List (Row τ π ω) → List (Row τ π ω)
  | [] => [r]
  | x :: xs => if r.available ≤ x.available then r :: x :: xs else x :: insertRow r xs

theorem insertRow_perm (r : Row τ π ω) (l : List (Row τ π ω)) : (insertRow r l).Perm (r :: l) := by
  induction l with
  | nil => exact .refl _
  | cons x xs ih =>
    unfold insertRow
    split
    · exact .refl _
    · exact (List.Perm.cons x ih).trans (.swap ..)

theorem sorts_insertion : Sorts (fun q : List (Row τ π ω) => q.foldr insertRow []) := by
  intro q
  induction q with
  | nil => exact ⟨.refl _, .nil⟩
  | cons r q ih =>
    refine ⟨(insertRow_perm r _).trans (ih.1.cons r), ?_⟩
    have : ∀ (l : List (Row τ π ω)), l.Pairwise (fun a b => a.available ≤ b.available) →
        (insertRow r l).Pairwise (fun a b => a.available ≤ b.available) := by
      intro l
      induction l with
      | nil => intro _; simp [insertRow]
      | cons x xs ihx =>
        intro h
        rw [List.pairwise_cons] at h
        unfold insertRow
        split
        · rename_i hle
          rw [List.pairwise_cons, List.pairwise_cons]
          refine ⟨?_, h⟩
          intro a ha
          rcases List.mem_cons.mp ha with e | e
          · rw [e]; exact hle
          · exact le_trans hle (h.1 a e)
        · rename_i hle
          rw [List.pairwise_cons]
          refine ⟨?_, ihx h.2⟩
          intro a ha
          rcases List.mem_cons.mp ((insertRow_perm r xs).mem_iff.mp ha) with e | e
          · rw [e]; exact le_of_lt (lt_of_not_ge hle)
          · exact h.1 a e
    exact this _ ih.2

/-- Non-vacuity: a history that queues, advances time, delivers and drains. -/
example : ((run (fun q : List (Row Nat String Nat) => q.foldr insertRow [])
    [.enqueue [("a", 0, 5), ("b", 1, 3)], .advance 4, .available, .next 2] (init 0) []).map
      fun r => r.1.map Row.payload) = .ok ["b", "a"] := by decide

end Verif.Streams.TM
