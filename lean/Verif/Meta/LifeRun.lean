import Verif.Meta.Life
import Mathlib.Data.List.GetD

/-!
Runs of ensemble members with a background learner: what `Meta/Life.lean` says about one
step, for whole runs. Used for `StreamingRandomPatchesClassifier` and
`AdaptiveRandomForestRegressor`.
-/

namespace Verif.Meta.Life

/-- A member (`M`) that is fed instances (`A`) at times 1, 2, ...: the model in use, its
time of creation, the background model with its time of creation, and the counters of
warnings and drifts; `smp` is the training sample made from an instance, if any. -/
structure Machine (M A T S : Type) where
  feed : Nat → A → M → M
  tree : M → T
  created : M → Nat
  bg : M → Option (T × Nat)
  nWarn : M → Nat
  nDrift : M → Nat
  smp : Nat → A → Option S

variable {M A T S R V : Type}

/-- The member after the instances `l`. -/
def Machine.life (K : Machine M A T S) (m0 : M) (l : List A) : M :=
  (l.zipIdx 1).foldl (fun m q => K.feed q.2 q.1 m) m0

/-- Newest first: time, warning counted, drift counted. -/
def Machine.answers (K : Machine M A T S) (m0 : M) (l : List A) : List (Nat × Bool × Bool) :=
  (List.range l.length).reverse.map fun j =>
    (j + 1, decide (K.nWarn (K.life m0 (l.take j)) < K.nWarn (K.life m0 (l.take (j + 1)))),
      decide (K.nDrift (K.life m0 (l.take j)) < K.nDrift (K.life m0 (l.take (j + 1)))))

/-- The training samples after time `c`. -/
def Machine.samplesAfter (K : Machine M A T S) (l : List A) (c : Nat) : List S :=
  ((l.zipIdx 1).filter fun q => c < q.2).filterMap fun q => K.smp q.2 q.1

/-- What `val` yields at the instances after time `c`, each applied to the member right
before the instance. -/
def Machine.history (K : Machine M A T S) (val : Nat → A → M → List V) (m0 : M) (l : List A) (c : Nat) : List V :=
  ((l.zipIdx 1).filter fun q => c < q.2).flatMap fun q => val q.2 q.1 (K.life m0 (l.take (q.2 - 1)))

theorem Machine.life_append (K : Machine M A T S) (m0 : M) (l : List A) (a : A) :
    K.life m0 (l ++ [a]) = K.feed (l.length + 1) a (K.life m0 l) := by
  unfold Machine.life
  rw [List.zipIdx_append, List.foldl_append, Nat.add_comm 1]
  rfl

theorem take_append_le (l : List A) (e : A) (j : Nat) (h : j ≤ l.length) :
    (l ++ [e]).take j = l.take j := List.take_append_of_le_length h

theorem Machine.answers_append (K : Machine M A T S) (m0 : M) (l : List A) (e : A) : K.answers m0 (l ++ [e]) =
    (l.length + 1, decide (K.nWarn (K.life m0 l) < K.nWarn (K.life m0 (l ++ [e]))),
      decide (K.nDrift (K.life m0 l) < K.nDrift (K.life m0 (l ++ [e])))) :: K.answers m0 l := by
  unfold Machine.answers
  rw [List.length_append, List.length_singleton, List.range_succ, List.reverse_append, List.reverse_singleton,
    List.singleton_append, List.map_cons]
  congr 1
  · rw [take_append_le l e _ (le_refl _), List.take_length, List.take_of_length_le (by simp)]
  · apply List.map_congr_left
    intro j hj
    have : j < l.length := by simpa using hj
    rw [take_append_le l e j (by omega), take_append_le l e (j + 1) (by omega)]

theorem Machine.answers_time (K : Machine M A T S) (m0 : M) (l : List A) (a : Nat × Bool × Bool)
    (h : a ∈ K.answers m0 l) : 1 ≤ a.1 ∧ a.1 ≤ l.length := by
  unfold Machine.answers at h
  rw [List.mem_map] at h
  obtain ⟨j, hj, rfl⟩ := h
  have : j < l.length := by simpa using hj
  simp only; omega

theorem zipIdx_bound (l : List A) (q : A × Nat) (h : q ∈ l.zipIdx 1) : 1 ≤ q.2 ∧ q.2 ≤ l.length := by
  obtain ⟨a, n⟩ := q
  have := List.mem_zipIdx h
  simp only at this ⊢
  omega

theorem zipIdx_snoc (l : List A) (e : A) : (l ++ [e]).zipIdx 1 = l.zipIdx 1 ++ [(e, l.length + 1)] := by
  rw [List.zipIdx_append, Nat.add_comm 1]
  rfl

theorem Machine.samplesAfter_append (K : Machine M A T S) (l : List A) (e : A) (c : Nat) (hc : c ≤ l.length) :
    K.samplesAfter (l ++ [e]) c = K.samplesAfter l c ++ (K.smp (l.length + 1) e).toList := by
  unfold Machine.samplesAfter
  rw [zipIdx_snoc, List.filter_append, List.filterMap_append]
  congr 1
  rw [List.filter_cons_of_pos (by simp; omega), List.filter_nil]
  cases h : K.smp (l.length + 1) e <;> simp [h]

theorem Machine.samplesAfter_nil (K : Machine M A T S) (l : List A) (c : Nat) (hc : l.length ≤ c) :
    K.samplesAfter l c = [] := by
  unfold Machine.samplesAfter
  rw [List.filter_eq_nil_iff.2]
  · rfl
  · intro q hq
    have := zipIdx_bound l q hq
    simp; omega

theorem Machine.history_append (K : Machine M A T S) (val : Nat → A → M → List V) (m0 : M) (l : List A) (e : A)
    (c : Nat) (hc : c ≤ l.length) :
    K.history val m0 (l ++ [e]) c = K.history val m0 l c ++ val (l.length + 1) e (K.life m0 l) := by
  unfold Machine.history
  rw [zipIdx_snoc, List.filter_append, List.flatMap_append]
  congr 1
  · rw [List.flatMap_eq_foldl, List.flatMap_eq_foldl]
    apply List.foldl_ext
    intro a q hq
    have := zipIdx_bound l q (List.mem_of_mem_filter hq)
    rw [take_append_le l e _ (by omega)]
  · rw [List.filter_cons_of_pos (by simp; omega), List.filter_nil, List.flatMap_singleton, Nat.add_sub_cancel,
      take_append_le l e _ (le_refl _), List.take_length]

theorem Machine.history_nil (K : Machine M A T S) (val : Nat → A → M → List V) (m0 : M) (l : List A) (c : Nat)
    (hc : l.length ≤ c) : K.history val m0 l c = [] := by
  unfold Machine.history
  rw [List.filter_eq_nil_iff.2]
  · rfl
  · intro q hq
    have := zipIdx_bound l q hq
    simp; omega

/-- The part of a member that `Life` describes; `c` is the time of creation. -/
def Machine.toLife (K : Machine M A T S) (m : M) (c : Nat) : Mem T := ⟨K.tree m, c, K.bg m⟩

/-- What a step of the machine must do. -/
structure Machine.StepOk (K : Machine M A T S) (isNew : T → Prop) (train : R → S → T → T) (m : M) (t : Nat) (a : A) :
    Prop where
  life : ∃ r1 r2 newW newD, isNew newW ∧ isNew newD ∧ ∀ c, Life.step train (K.toLife m c)
    ⟨t, K.smp t a, r1, r2, newW, newD, decide (K.nWarn m < K.nWarn (K.feed t a m)),
      decide (K.nDrift m < K.nDrift (K.feed t a m))⟩ =
    K.toLife (K.feed t a m) (if K.nDrift m < K.nDrift (K.feed t a m) then K.created (K.feed t a m) else c)
  quiet : K.smp t a = none → K.nWarn (K.feed t a m) = K.nWarn m ∧ K.nDrift (K.feed t a m) = K.nDrift m
  created : ¬ K.nDrift m < K.nDrift (K.feed t a m) → K.created (K.feed t a m) = K.created m
  nDrift : K.nDrift m ≤ K.nDrift (K.feed t a m) ∧ K.nDrift (K.feed t a m) ≤ K.nDrift m + 1
  nWarn : K.nWarn m ≤ K.nWarn (K.feed t a m) ∧ K.nWarn (K.feed t a m) ≤ K.nWarn m + 1

/-- What is known after a run. -/
structure Machine.Known (K : Machine M A T S) (isNew : T → Prop) (train : R → S → T → T) (m0 : M) (l : List A) :
    Prop where
  tree : Built isNew train (K.samplesAfter l (birth (K.answers m0 l))) (K.tree (K.life m0 l))
  bgTime : (K.bg (K.life m0 l)).map (fun b => b.2) = pending (K.answers m0 l)
  bgTree : ∀ b c, K.bg (K.life m0 l) = some (b, c) → Built isNew train (K.samplesAfter l c) b
  nDrift : K.nDrift (K.life m0 l) = K.nDrift m0 + ((K.answers m0 l).filter fun e => e.2.2).length
  nWarn : K.nWarn (K.life m0 l) = K.nWarn m0 + ((K.answers m0 l).filter fun e => e.2.1).length
  created : K.created (K.life m0 l) =
    if ((K.answers m0 l).filter fun e => e.2.2).length = 0 then K.created m0 else birth (K.answers m0 l)

theorem Machine.known (K : Machine M A T S) (isNew : T → Prop) (train : R → S → T → T) (m0 : M)
    (h0 : isNew (K.tree m0)) (hb : K.bg m0 = none) (l : List A)
    (hok : ∀ l1 a l2, l = l1 ++ a :: l2 → K.StepOk isNew train (K.life m0 l1) (l1.length + 1) a) :
    K.Known isNew train m0 l := by
  have key : ∃ es : List (Ev T S R), log es = K.answers m0 l ∧ (∀ c, since c es = K.samplesAfter l c) ∧
      (∀ e ∈ es, e.t ≤ l.length) ∧ Inv isNew train es (K.toLife (K.life m0 l) (birth (K.answers m0 l))) ∧
      K.nDrift (K.life m0 l) = K.nDrift m0 + ((K.answers m0 l).filter fun e => e.2.2).length ∧
      K.nWarn (K.life m0 l) = K.nWarn m0 + ((K.answers m0 l).filter fun e => e.2.1).length ∧
      K.created (K.life m0 l) =
        (if ((K.answers m0 l).filter fun e => e.2.2).length = 0 then K.created m0 else birth (K.answers m0 l)) := by
    induction l using List.reverseRecOn with
    | nil =>
      refine ⟨[], rfl, fun _ => rfl, (fun _ h => nomatch h), ?_, rfl, rfl, rfl⟩
      have := inv_new isNew train (K.tree m0) h0
      have e : K.toLife (K.life m0 []) (birth (K.answers m0 [])) = ⟨K.tree m0, 0, none⟩ := by
        simp [Machine.toLife, Machine.life, Machine.answers, birth, hb]
      rw [e]; exact this
    | append_singleton l a ih =>
      obtain ⟨es, h1, h2, h3, h4, h5, h6, h7⟩ := ih fun l1 b l2 he => hok l1 b (l2 ++ [a]) (by rw [he]; simp)
      have hs := hok l a [] rfl
      obtain ⟨r1, r2, newW, newD, hw, hd, hstep⟩ := hs.life
      have hans := K.answers_append m0 l a
      have hla := K.life_append m0 l a
      rw [hla] at hans ⊢
      generalize K.life m0 l = m at *
      generalize hm' : K.feed (l.length + 1) a m = m' at *
      set e : Ev T S R := ⟨l.length + 1, K.smp (l.length + 1) a, r1, r2, newW, newD, decide (K.nWarn m < K.nWarn m'),
        decide (K.nDrift m < K.nDrift m')⟩ with he
      have hlog : log (es ++ [e]) = K.answers m0 (l ++ [a]) := by rw [log_append, h1, hans, he]
      have hinv : Inv isNew train (es ++ [e]) (step train (K.toLife m (birth (K.answers m0 l))) e) := by
        apply inv_step _ _ _ _ _ _ _ _ _ h4
        · intro e' he'; have := h3 e' he'; rw [he]; simp only; omega
        · rw [he]; simp
        · exact ⟨hw, hd⟩
        · intro hn
          obtain ⟨a1, a2⟩ := hs.quiet hn
          rw [hm'] at a1 a2
          rw [he]; simp [a1, a2]
      rw [hstep] at hinv
      have hbirth : (if K.nDrift m < K.nDrift m' then K.created m' else birth (K.answers m0 l)) =
          birth (K.answers m0 (l ++ [a])) := by
        have := hinv.created
        rw [hlog] at this
        exact this
      rw [hbirth] at hinv
      refine ⟨es ++ [e], hlog, ?_, ?_, hinv, ?_, ?_, ?_⟩
      · intro c
        by_cases hc : c ≤ l.length
        · rw [since_append _ _ _ (by rw [he]; simp only; omega), h2, K.samplesAfter_append _ _ _ hc]
        · rw [K.samplesAfter_nil _ _ (by simp; omega), since_nil]
          intro e' he'
          rcases List.mem_append.1 he' with he' | he'
          · have := h3 e' he'; omega
          · rw [List.mem_singleton] at he'
            rw [he', he]; simp only; omega
      · intro e' he'
        rw [List.length_append, List.length_singleton]
        rcases List.mem_append.1 he' with he' | he'
        · have := h3 e' he'; omega
        · rw [List.mem_singleton] at he'
          rw [he', he]
      · rw [hans]
        have hle := hs.nDrift
        rw [hm'] at hle
        by_cases hdr : K.nDrift m < K.nDrift m'
        · rw [List.filter_cons_of_pos (by simpa using hdr), List.length_cons]; omega
        · rw [List.filter_cons_of_neg (by simpa using hdr)]; omega
      · rw [hans]
        have hle := hs.nWarn
        rw [hm'] at hle
        by_cases hdr : K.nWarn m < K.nWarn m'
        · rw [List.filter_cons_of_pos (by simpa using hdr), List.length_cons]; omega
        · rw [List.filter_cons_of_neg (by simpa using hdr)]; omega
      · rw [← hbirth, hans]
        by_cases hdr : K.nDrift m < K.nDrift m'
        · rw [List.filter_cons_of_pos (by simpa using hdr), List.length_cons, if_neg (by omega), if_pos hdr]
        · have hc := hs.created
          rw [hm'] at hc
          rw [List.filter_cons_of_neg (by simpa using hdr), if_neg hdr, hc hdr, h7]
  obtain ⟨es, h1, h2, h3, h4, h5, h6, h7⟩ := key
  refine ⟨?_, ?_, ?_, h5, h6, h7⟩
  · have := h4.tree
    rw [h2] at this
    exact this
  · have := h4.bgTime
    rw [h1] at this
    exact this
  · intro b c hbc
    have := h4.bgTree b c hbc
    rwa [h2] at this

/-- Last time (0: never) at which something restarted, given by the latest warning since
the last drift before the instance, the warning and the drift at the instance. -/
def lastRestart (f : Option Nat → Bool → Bool → Bool) : List (Nat × Bool × Bool) → Nat
  | [] => 0
  | (t, w, d) :: l => if f (pending l) w d then t else lastRestart f l

theorem lastRestart_le (f : Option Nat → Bool → Bool → Bool) (log : List (Nat × Bool × Bool)) (n : Nat)
    (h : ∀ a ∈ log, a.1 ≤ n) : lastRestart f log ≤ n := by
  induction log with
  | nil => simp [lastRestart]
  | cons a log ih =>
    obtain ⟨t, w, d⟩ := a
    rw [lastRestart]
    split
    · exact h (t, w, d) (by simp)
    · exact ih fun a ha => h a (by simp [ha])

/-- A part of the member that collects what `val` yields and is emptied at restarts holds
what was collected since the last restart. -/
theorem Machine.collected (K : Machine M A T S) (f : Option Nat → Bool → Bool → Bool) (val : Nat → A → M → List V)
    (h : M → List V → Prop) (m0 : M) (h0 : h m0 []) (l : List A)
    (hbg : ∀ l1 l2, l = l1 ++ l2 → (K.bg (K.life m0 l1)).map (fun b => b.2) = pending (K.answers m0 l1))
    (hstep : ∀ l1 a l2, l = l1 ++ a :: l2 → ∀ vs, h (K.life m0 l1) vs →
      h (K.feed (l1.length + 1) a (K.life m0 l1))
        (if f ((K.bg (K.life m0 l1)).map fun b => b.2)
            (decide (K.nWarn (K.life m0 l1) < K.nWarn (K.feed (l1.length + 1) a (K.life m0 l1))))
            (decide (K.nDrift (K.life m0 l1) < K.nDrift (K.feed (l1.length + 1) a (K.life m0 l1))))
          then [] else vs ++ val (l1.length + 1) a (K.life m0 l1))) :
    h (K.life m0 l) (K.history val m0 l (lastRestart f (K.answers m0 l))) := by
  induction l using List.reverseRecOn with
  | nil => exact h0
  | append_singleton l a ih =>
    have ih := ih (fun l1 l2 he => hbg l1 (l2 ++ [a]) (by rw [he]; simp))
      (fun l1 b l2 he => hstep l1 b (l2 ++ [a]) (by rw [he]; simp))
    have hs := hstep l a [] rfl _ ih
    rw [hbg l [a] rfl] at hs
    rw [K.answers_append, lastRestart, K.life_append]
    split at hs
    · rename_i hc
      rw [if_pos hc, K.history_nil _ _ _ _ (by simp)]
      exact hs
    · rename_i hc
      rw [if_neg hc, K.history_append]
      · exact hs
      · exact lastRestart_le _ _ _ fun b hb => (K.answers_time m0 l b hb).2

end Verif.Meta.Life
