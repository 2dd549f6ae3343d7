import Verif.Buffers.Model

/-!
Properties C01, C02 (FastBuffer) and C03 (SlidingWindow).
-/

namespace Verif.Buffers

section Fast
variable {α : Type}

/-! ### Specification: an ordinary bounded FIFO queue, oldest element first. -/

/-- A call on a bounded first-in-first-out queue of capacity `n`. -/
def fifo (n : Nat) (q : List α) : BufOp α → BufObs α × List α
  | .add xs =>
    let all := q ++ xs
    if all.length ≤ n then (.added none, all)
    else (.added (some ((all.take (all.length - n)).map some)), lastN n all)
  | .next => (.got q.head?, q.tail)
  | .clear => (.cleared, [])
  | .peek => (.got q.head?, q)
  | .queue => (.elements q, q)
  | .size => (.nat q.length, q)
  | .full => (.flag (decide (q.length = n)), q)
  | .empty => (.flag (decide (q = [])), q)

/-- Observations of a sequence of calls on the specification queue. -/
def fifoCalls (n : Nat) : List α → List (BufOp α) → List (BufObs α)
  | _, [] => []
  | q, op :: ops => (fifo n q op).1 :: fifoCalls n (fifo n q op).2 ops

/-! ### Proof -/

private theorem addLoop (n : Nat) (hn : 1 ≤ n) (xs : List α) :
    ∀ (aux : List (Option α)) (q : List α), q.length ≤ n →
      xs.foldl FastBuffer.addOne (aux, ⟨n, q.length, q⟩) =
        (aux ++ ((q ++ xs).take ((q ++ xs).length - n)).map some,
          ⟨n, (lastN n (q ++ xs)).length, lastN n (q ++ xs)⟩) := by
  induction xs with
  | nil =>
    intro aux q hq
    simp [lastN, Nat.sub_eq_zero_of_le hq]
  | cons x xs ih =>
    intro aux q hq
    rw [List.foldl_cons]
    by_cases hfull : q.length = n
    · cases q with
      | nil => simp at hfull; omega
      | cons a t =>
        simp only [List.length_cons] at hfull
        have hstep : FastBuffer.addOne (aux, ⟨n, (a :: t).length, a :: t⟩) x
            = (aux ++ [some a], ⟨n, (t ++ [x]).length, t ++ [x]⟩) := by
          simp [FastBuffer.addOne, FastBuffer.isFull, FastBuffer.getNextElement, hfull]
          omega
        rw [hstep, ih _ _ (by simp; omega)]
        have e1 : (t ++ [x] ++ xs).length = t.length + 1 + xs.length := by
          simp [Nat.add_comm, Nat.add_left_comm]
        have e2 : (a :: t ++ x :: xs).length = t.length + 1 + xs.length + 1 := by
          simp [Nat.add_comm, Nat.add_left_comm]
        have e3 : a :: t ++ x :: xs = a :: (t ++ [x] ++ xs) := by simp
        have e4 : t.length + 1 + xs.length + 1 - n = (t.length + 1 + xs.length - n) + 1 := by omega
        unfold lastN
        rw [e1, e2, e4, e3, List.take_succ_cons, List.drop_succ_cons]
        simp
    · have hstep : FastBuffer.addOne (aux, ⟨n, q.length, q⟩) x
            = (aux, ⟨n, (q ++ [x]).length, q ++ [x]⟩) := by
        simp [FastBuffer.addOne, FastBuffer.isFull, hfull]
      rw [hstep, ih _ _ (by simp; omega)]
      simp

private theorem add_eq (n : Nat) (hn : 1 ≤ n) (q xs : List α) (hq : q.length ≤ n) :
    FastBuffer.addElement ⟨n, q.length, q⟩ xs =
      (if (q ++ xs).length ≤ n then none
        else some (((q ++ xs).take ((q ++ xs).length - n)).map some),
       ⟨n, (lastN n (q ++ xs)).length, lastN n (q ++ xs)⟩) := by
  unfold FastBuffer.addElement
  by_cases h : q.length + xs.length ≤ n
  · have h' : (q ++ xs).length ≤ n := by simpa using h
    simp only [h, h', if_true, lastN_of_le h', List.length_append]
  · have h' : ¬ (q ++ xs).length ≤ n := by simpa using h
    simp only [h, h', if_false, addLoop n hn xs [] q hq, List.nil_append]

/-- One-element `add_element` on a buffer holding the last `n` of `h`. -/
theorem addElement_single (n : Nat) (hn : 1 ≤ n) (h : List α) (x : α) :
    FastBuffer.addElement ⟨n, (lastN n h).length, lastN n h⟩ [x] =
      (if h.length < n then none else some [(lastN n h).head?],
       ⟨n, (lastN n (h ++ [x])).length, lastN n (h ++ [x])⟩) := by
  rw [add_eq n hn _ _ (by simp), lastN_lastN_append]
  congr 1
  by_cases hl : h.length < n
  · rw [if_pos hl, if_pos (by simp; omega)]
  · have e : (lastN n h).length = n := by simp; omega
    rw [if_neg hl, if_neg (by simp; omega)]
    cases hq : lastN n h with
    | nil => rw [hq] at e; simp at e; omega
    | cons a t =>
      rw [hq] at e
      simp only [List.length_cons] at e
      simp [show t.length + 1 + 1 - n = 1 by omega]

/-- **C01.** After any sequence of `add_element` calls, `get_queue()` is the
last `max_size` of all elements ever added, in arrival order. -/
theorem C01_queue_is_newest (n : Nat) (hn : 1 ≤ n) (batches : List (List α)) :
    (batches.foldl (fun b xs => (b.addElement xs).2) (FastBuffer.init n)).getQueue
      = lastN n batches.flatten := by
  suffices h : ∀ (bs : List (List α)) (q : List α), q.length ≤ n →
      (bs.foldl (fun b xs => (FastBuffer.addElement b xs).2) ⟨n, q.length, q⟩).getQueue
        = lastN n (q ++ bs.flatten) by
    simpa [FastBuffer.init] using h batches [] (by simp)
  intro bs
  induction bs with
  | nil => intro q hq; simp [FastBuffer.getQueue, lastN_of_le hq]
  | cons b bs ih =>
    intro q hq
    rw [List.foldl_cons, add_eq n hn q b hq]
    rw [ih _ (by simp), lastN_lastN_append]
    simp

/-- The reported size never exceeds the capacity. -/
theorem C01_size_bounded (n : Nat) (hn : 1 ≤ n) (batches : List (List α)) :
    (batches.foldl (fun b xs => (b.addElement xs).2) (FastBuffer.init n)).getQueue.length ≤ n := by
  rw [C01_queue_is_newest n hn]; simp

/-- **C02.** For every sequence of calls, each call returns what the bounded
FIFO queue returns. -/
theorem C02_refines_fifo (n : Nat) (hn : 1 ≤ n) (ops : List (BufOp α)) :
    (FastBuffer.init n).calls ops = fifoCalls n [] ops := by
  suffices h : ∀ (q : List α), q.length ≤ n →
      FastBuffer.calls ⟨n, q.length, q⟩ ops = fifoCalls n q ops by
    exact h [] (by simp)
  induction ops with
  | nil => intro q _; rfl
  | cons op ops ih =>
    intro q hq
    cases op with
    | add xs =>
      simp only [FastBuffer.calls, FastBuffer.call, fifoCalls, fifo, add_eq n hn q xs hq]
      by_cases h : (q ++ xs).length ≤ n
      · simp only [h, if_true, lastN_of_le h]; rw [ih _ h]
      · simp only [h, if_false]
        rw [ih _ (by simp)]
    | next =>
      cases q with
      | nil => simpa [FastBuffer.calls, FastBuffer.call, fifoCalls, fifo,
          FastBuffer.getNextElement] using ih [] (by simp)
      | cons a t =>
        have := ih t (by simp at hq; omega)
        simpa [FastBuffer.calls, FastBuffer.call, fifoCalls, fifo,
          FastBuffer.getNextElement] using this
    | clear =>
      simpa [FastBuffer.calls, FastBuffer.call, fifoCalls, fifo, FastBuffer.clearQueue]
        using ih [] (by simp)
    | peek => simpa [FastBuffer.calls, FastBuffer.call, fifoCalls, fifo, FastBuffer.peek]
        using ih q hq
    | queue => simpa [FastBuffer.calls, FastBuffer.call, fifoCalls, fifo, FastBuffer.getQueue]
        using ih q hq
    | size => simpa [FastBuffer.calls, FastBuffer.call, fifoCalls, fifo,
        FastBuffer.getCurrentSize] using ih q hq
    | full =>
      have := ih q hq
      simp only [FastBuffer.calls, FastBuffer.call, fifoCalls, fifo, FastBuffer.isFull, this]
      congr 2
    | empty =>
      have := ih q hq
      simp only [FastBuffer.calls, FastBuffer.call, fifoCalls, fifo, FastBuffer.isEmpty, this]
      cases q <;> simp

/-- What is evicted followed by what remains is everything that was there:
nothing is lost, duplicated or reordered by `add_element`. -/
theorem C02_add_conserves (n : Nat) (hn : 1 ≤ n) (batches : List (List α)) (xs : List α) :
    let b := batches.foldl (fun b xs => (b.addElement xs).2) (FastBuffer.init n)
    ((b.addElement xs).1.getD [] ++ (b.addElement xs).2.getQueue.map some)
      = (b.getQueue ++ xs).map some := by
  intro b
  have key : ∀ (bs : List (List α)) (q : List α), q.length ≤ n →
      ∃ q' : List α, q'.length ≤ n ∧
      (bs.foldl (fun b xs => (FastBuffer.addElement b xs).2) ⟨n, q.length, q⟩)
        = ⟨n, q'.length, q'⟩ := by
    intro bs
    induction bs with
    | nil => intro q hq; exact ⟨q, hq, rfl⟩
    | cons c bs ih =>
      intro q hq
      rw [List.foldl_cons, add_eq n hn q c hq]
      exact ih _ (by simp)
  obtain ⟨q, hq, hb⟩ := key batches [] (by simp)
  have hb' : b = ⟨n, q.length, q⟩ := hb
  rw [hb', add_eq n hn q xs hq]
  simp only [FastBuffer.getQueue]
  by_cases h : (q ++ xs).length ≤ n
  · simp only [h, if_true, Option.getD_none, List.nil_append, lastN_of_le h]
  · simp only [h, if_false, Option.getD_some, lastN, ← List.map_append, List.take_append_drop]

/-- Boundary case excluded above: with `max_size = 0` the buffer is *not*
bounded; every element after the first is kept. -/
theorem C02_zero_capacity_unbounded (x : α) (xs : List α) :
    (((FastBuffer.init 0).addElement (x :: xs)).2).getQueue = x :: xs := by
  have h : ∀ (ys : List α) (aux : List (Option α)) (q : List α), q ≠ [] →
      (ys.foldl FastBuffer.addOne (aux, ⟨0, q.length, q⟩)).2.buffer = q ++ ys := by
    intro ys
    induction ys with
    | nil => intro aux q _; simp
    | cons y ys ih =>
      intro aux q hq
      rw [List.foldl_cons]
      have hlen : q.length ≠ 0 := by simpa using hq
      have hstep : FastBuffer.addOne (aux, ⟨0, q.length, q⟩) y
            = (aux, ⟨0, (q ++ [y]).length, q ++ [y]⟩) := by
        simp [FastBuffer.addOne, FastBuffer.isFull, hlen]
      rw [hstep, ih _ _ (by simp)]; simp
  have := h xs [none] [x] (by simp)
  simpa [FastBuffer.addElement, FastBuffer.init, FastBuffer.getQueue, FastBuffer.addOne,
    FastBuffer.isFull, FastBuffer.getNextElement] using this

-- Concrete instances: batches that straddle the capacity.
example : (([[1, 2], [3, 4], [], [5]] : List (List Nat)).foldl
    (fun b xs => (b.addElement xs).2) (FastBuffer.init 3)).getQueue = [3, 4, 5] := by decide
example : (((FastBuffer.init 2 : FastBuffer Nat).addElement [1]).2.addElement [2, 3, 4]).1
    = some [some 1, some 2] := by decide

end Fast

/-! ## C03: SlidingWindow -/

section Sliding
variable {ι : Type}

/-- Specification state: the widths fixed by the first sample (if any), and the
labelled samples kept, oldest first. -/
structure WinSpec (ι : Type) where
  dims : Option (Nat × Nat)
  pairs : List (List ι × List ι)

/-- Specification of the calls; `add` is for one sample `(x, y)`. -/
inductive RowOp (ι : Type) where
  | add (x y : List ι)
  | deleteOldest
  | reset

/-- A window of the last `w` samples: a sample with the wrong number of features
is rejected with `ValueError` without effect. -/
def WinSpec.step (w : Nat) (s : WinSpec ι) : RowOp ι → Option PyErr × WinSpec ι
  | .add x y =>
    match s.dims with
    | none => (none, ⟨some (x.length, y.length), lastN w (s.pairs ++ [(x, y)])⟩)
    | some d =>
      if x.length ≠ d.1 then (some .valueError, s)
      else (none, ⟨some d, lastN w (s.pairs ++ [(x, y)])⟩)
  | .deleteOldest => (none, { s with pairs := s.pairs.tail })
  | .reset => (none, ⟨none, []⟩)

def WinSpec.steps (w : Nat) : WinSpec ι → List (RowOp ι) → List (Option PyErr) × WinSpec ι
  | s, [] => ([], s)
  | s, op :: ops =>
    ((s.step w op).1 :: (WinSpec.steps w (s.step w op).2 ops).1,
      (WinSpec.steps w (s.step w op).2 ops).2)

/-- A one-row call on the modelled window. -/
def RowOp.toCall : RowOp ι → WinOp ι
  | .add x y => .add ⟨x.length, [x]⟩ ⟨y.length, [y]⟩
  | .deleteOldest => .deleteOldest
  | .reset => .reset

/-- All samples added have the same number `t` of targets. -/
def RowOp.targets (t : Nat) : RowOp ι → Prop
  | .add _ y => y.length = t
  | _ => True

/-- Abstraction relation. -/
private def Abs (t : Nat) (w : Nat) (s : SlidingWindow ι) (a : WinSpec ι) : Prop :=
  s.windowSize = w ∧ a.pairs.length ≤ w ∧
  match a.dims with
  | none => s.win = none ∧ a.pairs = []
  | some d => d.2 = t ∧ s.win = some ⟨d.1, d.2, a.pairs.map Prod.fst, a.pairs.map Prod.snd⟩

private theorem add_abs (t w : Nat) (hw : 1 ≤ w) (f : Nat) (ps : List (List ι × List ι))
    (hps : ps.length ≤ w) (x y : List ι) (hx : x.length = f) (hy : y.length = t) :
    SlidingWindow.addSample ⟨w, some ⟨f, t, ps.map Prod.fst, ps.map Prod.snd⟩⟩
      ⟨x.length, [x]⟩ ⟨y.length, [y]⟩ =
    (none, ⟨w, some ⟨f, t, (lastN w (ps ++ [(x, y)])).map Prod.fst,
      (lastN w (ps ++ [(x, y)])).map Prod.snd⟩⟩) := by
  by_cases hfull : ps.length = w
  · cases ps with
    | nil => simp at hfull; omega
    | cons p ps =>
      have : lastN w (p :: ps ++ [(x, y)]) = ps ++ [(x, y)] := by
        rw [← hfull, lastN_append_singleton_full _ _ (by simp)]; simp
      rw [this]
      simp [SlidingWindow.addSample, SlidingWindow.evict, SlidingWindow.stack, hx, hy]
      rw [if_pos (by simpa using hfull)]
      simp
  · have : lastN w (ps ++ [(x, y)]) = ps ++ [(x, y)] := lastN_of_le (by simp; omega)
    rw [this]
    simp [SlidingWindow.addSample, SlidingWindow.evict, SlidingWindow.stack, hx, hy, hfull]

private theorem step_abs (t w : Nat) (hw : 1 ≤ w) (s : SlidingWindow ι) (a : WinSpec ι)
    (h : Abs t w s a) (op : RowOp ι) (hop : op.targets t) :
    (s.call op.toCall).1 = (a.step w op).1 ∧
      Abs t w (s.call op.toCall).2 (a.step w op).2 := by
  obtain ⟨hws, hlen, hd⟩ := h
  obtain ⟨sw, win⟩ := s
  obtain ⟨dims, pairs⟩ := a
  simp only at hws hlen hd
  subst hws
  cases op with
  | add x y =>
    simp only [RowOp.targets] at hop
    simp only [RowOp.toCall, SlidingWindow.call, WinSpec.step]
    cases dims with
    | none =>
      obtain ⟨h1, h2⟩ := hd
      subst h1 h2
      have := add_abs t sw hw x.length [] (by simp) x y rfl hop
      have e : SlidingWindow.addSample (ι := ι) ⟨sw, none⟩ ⟨x.length, [x]⟩ ⟨y.length, [y]⟩ =
        SlidingWindow.addSample ⟨sw, some ⟨x.length, t, [], []⟩⟩ ⟨x.length, [x]⟩
          ⟨y.length, [y]⟩ := by
        simp [SlidingWindow.addSample, hop]
      simp only [List.map_nil] at this
      rw [e, this]
      refine ⟨rfl, rfl, by simp, hop, by simp [hop]⟩
    | some d =>
      obtain ⟨h1, h2⟩ := hd
      subst h2
      by_cases hx : x.length = d.1
      · have := add_abs t sw hw d.1 pairs hlen x y hx hop
        simp only [h1]
        rw [this]
        simp only [hx, ne_eq, not_true_eq_false, if_false]
        exact ⟨trivial, rfl, by simp, h1, by simp [h1]⟩
      · have hx' : ¬ d.1 = x.length := fun h => hx h.symm
        simp only [SlidingWindow.addSample, ne_eq, hx', not_false_eq_true, if_true, hx]
        exact ⟨trivial, rfl, hlen, h1, rfl⟩
  | deleteOldest =>
    simp only [RowOp.toCall, SlidingWindow.call, WinSpec.step]
    cases dims with
    | none =>
      obtain ⟨h1, h2⟩ := hd
      subst h1 h2
      exact ⟨trivial, rfl, by simp, rfl, rfl⟩
    | some d =>
      obtain ⟨h1, h2⟩ := hd
      subst h2
      refine ⟨trivial, ?_, by simp; omega, h1, ?_⟩
      · cases pairs <;> rfl
      · cases pairs <;> simp [SlidingWindow.deleteOldest]
  | reset =>
    exact ⟨rfl, rfl, by simp [WinSpec.step], rfl, rfl⟩

/-- **C03.** One sample at a time (with a constant number `t` of targets), the
sliding window behaves as the list of the last `window_size` labelled samples:
same exceptions, and the feature and target buffers are the first and second
components of the kept pairs, row by row.  (Partial: the full claim allows any
`add_sample` call; it fails for multi-row adds and for target rows of a different
width, see the two violations below.) -/
theorem C03_sliding_window_partial (t w : Nat) (hw : 1 ≤ w) (ops : List (RowOp ι))
    (hops : ∀ op ∈ ops, op.targets t) :
    let impl := (SlidingWindow.init w).calls (ops.map RowOp.toCall)
    let spec := WinSpec.steps w ⟨none, []⟩ ops
    impl.1 = spec.1 ∧
    (impl.2.featuresBuffer.getD []) = spec.2.pairs.map Prod.fst ∧
    (impl.2.targetsBuffer.getD []) = spec.2.pairs.map Prod.snd ∧
    spec.2.pairs.length ≤ w ∧ impl.2.size = spec.2.pairs.length := by
  have key : ∀ (ops : List (RowOp ι)) (s : SlidingWindow ι) (a : WinSpec ι),
      (∀ op ∈ ops, op.targets t) → Abs t w s a →
      (s.calls (ops.map RowOp.toCall)).1 = (WinSpec.steps w a ops).1 ∧
      Abs t w (s.calls (ops.map RowOp.toCall)).2 (WinSpec.steps w a ops).2 := by
    intro ops
    induction ops with
    | nil => intro s a _ h; exact ⟨rfl, h⟩
    | cons op ops ih =>
      intro s a hops h
      obtain ⟨h1, h2⟩ := step_abs t w hw s a h op (hops op (by simp))
      obtain ⟨h3, h4⟩ := ih _ _ (fun o ho => hops o (by simp [ho])) h2
      simp only [List.map_cons, SlidingWindow.calls, WinSpec.steps]
      exact ⟨by rw [h1, h3], h4⟩
  have h0 : Abs t w (SlidingWindow.init w : SlidingWindow ι) ⟨none, []⟩ :=
    ⟨rfl, by simp, rfl, rfl⟩
  obtain ⟨h1, hA⟩ := key ops _ _ hops h0
  refine ⟨h1, ?_, ?_, hA.2.1, ?_⟩
  all_goals
    obtain ⟨_, _, h3⟩ := hA
    revert h3
    generalize (WinSpec.steps w ⟨none, []⟩ ops).2 = a
    generalize (SlidingWindow.calls (SlidingWindow.init w) (ops.map RowOp.toCall)).2 = s
    rcases a with ⟨_ | d, ps⟩
    · rintro ⟨h3, h4⟩
      simp [SlidingWindow.featuresBuffer, SlidingWindow.targetsBuffer, SlidingWindow.size, h3, h4]
      try exact h4
      try (simp only at h4; simp [h4])
    · rintro ⟨h3, h4⟩
      simp [SlidingWindow.featuresBuffer, SlidingWindow.targetsBuffer, SlidingWindow.size, h4]

/-- Violation: a multi-row `add_sample` lets the window outgrow `window_size`,
and once it has outgrown it, later single-row adds never evict. -/
theorem C03_multirow_violated :
    let s := ((SlidingWindow.init 2 : SlidingWindow Nat).addSample
      ⟨1, [[1], [2], [3]]⟩ ⟨1, [[0], [0], [0]]⟩).2
    s.size = 3 ∧ ∀ xs : List Nat,
      (xs.foldl (fun s x => (s.addSample ⟨1, [[x]]⟩ ⟨1, [[0]]⟩).2) s).size = 3 + xs.length := by
  intro s
  refine ⟨rfl, fun xs => ?_⟩
  have h : ∀ (xs : List Nat) (X Y : List (List Nat)), 2 < X.length →
      (xs.foldl (fun s x => (SlidingWindow.addSample s ⟨1, [[x]]⟩ ⟨1, [[0]]⟩).2)
        ⟨2, some ⟨1, 1, X, Y⟩⟩).size = X.length + xs.length := by
    intro xs
    induction xs with
    | nil => intro X Y _; rfl
    | cons x xs ih =>
      intro X Y hX
      have hne : X.length ≠ 2 := by omega
      have := ih (X ++ [[x]]) (Y ++ [[0]]) (by simp; omega)
      have hstep : (SlidingWindow.addSample (ι := Nat) ⟨2, some ⟨1, 1, X, Y⟩⟩ ⟨1, [[x]]⟩
          ⟨1, [[0]]⟩).2 = ⟨2, some ⟨1, 1, X ++ [[x]], Y ++ [[0]]⟩⟩ := by
        simp [SlidingWindow.addSample, SlidingWindow.evict, hne, SlidingWindow.stack]
      rw [List.foldl_cons, hstep, this]; simp; omega
  exact h xs [[1], [2], [3]] [[0], [0], [0]] (by simp)

/-- Violation: a sample whose target row has the wrong width raises
`ValueError` but its features stay in the window, so features and targets are
out of step from then on. -/
theorem C03_bad_target_misaligns :
    let s0 := ((SlidingWindow.init 5 : SlidingWindow Nat).addSample ⟨1, [[7]]⟩ ⟨1, [[0]]⟩).2
    let r := s0.addSample ⟨1, [[8]]⟩ ⟨2, [[1, 1]]⟩
    r.1 = some .valueError ∧ r.2.featuresBuffer = some [[7], [8]] ∧
      r.2.targetsBuffer = some [[0]] := by
  exact ⟨rfl, rfl, rfl⟩

-- Concrete instance of C03's hypotheses: five samples (one malformed), one deletion.
example : ∀ op ∈ ([.add [1, 2] [0], .add [3, 4] [1], .add [9] [1], .deleteOldest,
    .add [5, 6] [0]] : List (RowOp Nat)), op.targets 1 := by
  simp [RowOp.targets]
example : ((SlidingWindow.init 2).calls (([.add [1, 2] [0], .add [3, 4] [1], .add [9] [1],
    .add [5, 6] [0]] : List (RowOp Nat)).map RowOp.toCall)).2.featuresBuffer
    = some [[3, 4], [5, 6]] := by decide

end Sliding

end Verif.Buffers
