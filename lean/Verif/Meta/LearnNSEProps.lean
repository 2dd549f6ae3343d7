import Verif.Meta.LearnNSE
import Mathlib.Data.List.Forall2
import Mathlib.Data.List.Induction
import Mathlib.Tactic.Linarith
import Mathlib.Data.Rat.Lemmas

/-!
C149: the members of a `LearnPPNSEClassifier` are the learners trained on the windows of the
stream.
-/

namespace Verif.Meta.NSE

open Windows

variable {F X S : Type} [Field F] [LinearOrder F]

/-- A whole history: `partial_fit` calls `(classes, samples)` on a new classifier. -/
def run (E : Env F X S) (calls : List (Option (List Int) × List (X × Int))) : Except PyErr (Cls F X S) :=
  calls.foldlM (fun c call => partialFit E c call.1 call.2) blank

/-- Specification: the member is a learner trained on the window `w` and on nothing else. -/
def TrainedOn (E : Env F X S) (m : Member F S) (w : List (X × Int)) : Prop := ∃ n, m.model = E.fit n w

theorem eval_model (E : Env F X S) (n : Nat) (b : List (X × Int)) (iw : List F) (a : Nat) (m : Member F S) :
    (evalMember E n b iw a m).1.model = m.model ∨ (a = 0 ∧ (evalMember E n b iw a m).1.model = E.fit n b) := by
  unfold evalMember
  by_cases h1 : a = 0 ∧ 1 / 2 < weighted iw (wrongs E m.model b)
  · right; simp only [if_pos h1]; exact ⟨h1.1, rfl⟩
  · left
    simp only [if_neg h1]
    by_cases h2 : 1 / 2 < weighted iw (wrongs E m.model b)
    · rw [if_pos h2]; rfl
    · rw [if_neg h2]; rfl

/-- What a full window does: the members and the new learner are scored, with the instance
weights `iw`, and pruned. -/
theorem process_ok (E : Env F X S) (k : List Int) (st st' : State F S) (b : List (X × Int))
    (h : process E k st b = Except.ok st') :
    ∃ iw : List F,
      (st.members = [] → iw = List.replicate b.length (1 / (b.length : F))) ∧
      (st.members ≠ [] → ∃ wr, ensembleWrongs E k st.members b = Except.ok wr ∧ iw = instWeights wr) ∧
      st'.members = prune E ((st.members ++ [newMem E st.fits b]).mapIdx fun i m =>
        evalMember E (st.fits + 1) b iw (st.members.length - i) m) := by
  unfold process at h
  simp only [List.length_append, List.length_singleton, Nat.add_sub_cancel] at h
  by_cases he : st.members = []
  · rw [if_pos he] at h
    cases h
    exact ⟨_, fun _ => rfl, fun hn => absurd he hn, rfl⟩
  · rw [if_neg he] at h
    cases hw : ensembleWrongs E k st.members b with
    | error e => rw [hw] at h; cases h
    | ok wr =>
      rw [hw] at h
      cases h
      exact ⟨_, fun hn => absurd hn he, fun _ => ⟨wr, rfl, rfl⟩, rfl⟩

theorem forall₂_of_get {α β : Type} {R : α → β → Prop} {l : List α} {l' : List β} (hl : l.length = l'.length)
    (h : ∀ (i : Nat) (x : α) (y : β), l[i]? = some x → l'[i]? = some y → R x y) : List.Forall₂ R l l' := by
  induction l generalizing l' with
  | nil =>
    cases l' with
    | nil => exact .nil
    | cons y l' => cases hl
  | cons x l ih =>
    cases l' with
    | nil => cases hl
    | cons y l' =>
      exact .cons (h 0 x y rfl rfl) (ih (by simpa using hl) fun i a b ha hb => h (i + 1) a b (by simpa using ha) (by simpa using hb))

theorem get_of_forall₂ {α β : Type} {R : α → β → Prop} {l : List α} {l' : List β} (h : List.Forall₂ R l l')
    (i : Nat) (x : α) (y : β) (hx : l[i]? = some x) (hy : l'[i]? = some y) : R x y := by
  induction h generalizing i with
  | nil => simp at hx
  | cons hxy _ ih =>
    cases i with
    | zero => simp at hx hy; subst hx hy; exact hxy
    | succ i => exact ih i (by simpa using hx) (by simpa using hy)

/-- One window: the trained members, before pruning. -/
theorem process_trained (E : Env F X S) (ms : List (Member F S)) (n n' : Nat) (b : List (X × Int)) (iw : List F)
    (ws : List (List (X × Int))) (h : List.Forall₂ (TrainedOn E) ms ws) :
    List.Forall₂ (TrainedOn E)
      (((ms ++ [newMem E n b]).mapIdx fun i m => evalMember E n' b iw (ms.length - i) m).map Prod.fst)
      (ws ++ [b]) := by
  have hlen := h.length_eq
  apply forall₂_of_get (by simp [hlen])
  intro i x y hx hy
  rw [List.getElem?_map, List.getElem?_mapIdx] at hx
  by_cases hi : i < ms.length
  · rw [List.getElem?_append_left hi] at hx
    rw [List.getElem?_append_left (by omega)] at hy
    obtain ⟨m, hm⟩ : ∃ m, ms[i]? = some m := ⟨ms[i], List.getElem?_eq_getElem hi⟩
    rw [hm] at hx
    simp only [Option.map_some, Option.some.injEq] at hx
    subst hx
    obtain ⟨q, hq⟩ := get_of_forall₂ h i m y hm hy
    rcases eval_model E n' b iw (ms.length - i) m with h1 | ⟨h1, _⟩
    · exact ⟨q, by rw [h1, hq]⟩
    · omega
  · rw [List.getElem?_append_right (by omega)] at hx
    rw [List.getElem?_append_right (by omega)] at hy
    have hi' : i = ms.length := by
      by_contra hne
      rw [List.getElem?_eq_none (by simp only [List.length_singleton]; omega)] at hy
      cases hy
    subst hi'
    rw [hlen] at hy
    simp at hx hy
    subst hx hy
    rcases eval_model E n' b iw 0 (newMem E n b) with h1 | ⟨_, h1⟩
    · exact ⟨n, h1⟩
    · exact ⟨n', h1⟩

/-- Feeding several calls is feeding their samples. -/
theorem run_feed (E : Env F X S) (calls : List (Option (List Int) × List (X × Int))) (k : List Int)
    (c : Cls F X S) (hc : c.classes = some k) :
    calls.foldlM (fun c call => partialFit E c call.1 call.2) c =
      match feed E.window (process E k) (c.st, c.buf) (calls.flatMap Prod.snd) with
      | (_, some e) => Except.error e
      | ((st, b), none) => Except.ok ⟨some k, st, b⟩ := by
  induction calls generalizing c with
  | nil =>
    obtain ⟨c1, c2, c3⟩ := c
    simp only at hc
    subst hc
    simp [feed, pure, Except.pure]
  | cons call calls ih =>
    rw [List.foldlM_cons, List.flatMap_cons, feed_append]
    have hp : partialFit E c call.1 call.2 = match feed E.window (process E k) (c.st, c.buf) call.2 with
        | (_, some e) => Except.error e
        | ((st, b), none) => Except.ok ⟨some k, st, b⟩ := by
      unfold partialFit; rw [hc]; rfl
    rw [hp]
    obtain ⟨⟨s', b'⟩, o, hs⟩ : ∃ q o, feed E.window (process E k) (c.st, c.buf) call.2 = (q, o) := ⟨_, _, rfl⟩
    rw [hs]
    cases o with
    | some e => rfl
    | none =>
      simp only [bind, Except.bind]
      rw [ih ⟨some k, s', b'⟩ rfl]

/-- C149: how the samples are spread over calls does not matter: a history that starts with
`partial_fit(X, y, classes)` gives what one call with all the samples gives, result or
exception. -/
theorem C149_calls (E : Env F X S) (k : List Int) (xs : List (X × Int))
    (calls : List (Option (List Int) × List (X × Int))) :
    run E ((some k, xs) :: calls) = run E [(some k, xs ++ calls.flatMap Prod.snd)] := by
  unfold run
  have key : ∀ l : List (Option (List Int) × List (X × Int)), (l.foldlM (fun c call => partialFit E c call.1 call.2) (⟨some k, ⟨[], 0⟩, []⟩ : Cls F X S)) =
      match feed E.window (process E k) (⟨[], 0⟩, []) (l.flatMap Prod.snd) with
      | (_, some e) => Except.error e
      | ((st, b), none) => Except.ok ⟨some k, st, b⟩ := fun l => run_feed E l k ⟨some k, ⟨[], 0⟩, []⟩ rfl
  have first : ∀ ys, partialFit E (blank : Cls F X S) (some k) ys = partialFit E ⟨some k, ⟨[], 0⟩, []⟩ (some k) ys := by
    intro ys; rfl
  have h1 := key ((some k, xs) :: calls)
  have h2 := key [(some k, xs ++ calls.flatMap Prod.snd)]
  rw [List.foldlM_cons] at h1 h2 ⊢
  rw [List.foldlM_cons]
  simp only at h1 h2 ⊢
  rw [first, first, h1, h2]
  simp

/-- Successful histories run `process` over the full windows. -/
theorem run_windows (E : Env F X S) (hw : 0 < E.window) (calls : List (Option (List Int) × List (X × Int)))
    (c : Cls F X S) (h : run E calls = Except.ok c) :
    ∃ k, (windows E.window (calls.flatMap Prod.snd)).foldlM (process E k) ⟨[], 0⟩ = Except.ok c.st ∧
      c.buf = rest E.window (calls.flatMap Prod.snd) := by
  cases calls with
  | nil =>
    simp only [run, List.foldlM_nil, pure, Except.pure] at h
    cases h
    exact ⟨[], by simp [windows, pure, Except.pure, blank], by simp [rest, blank]⟩
  | cons call calls =>
    obtain ⟨o, xs⟩ := call
    cases o with
    | none =>
      simp [run, partialFit, blank, bind, Except.bind] at h
    | some k =>
      have h2 := run_feed E ((some k, xs) :: calls) k (⟨some k, ⟨[], 0⟩, []⟩ : Cls F X S) rfl
      have h1 : run E ((some k, xs) :: calls) =
          ((some k, xs) :: calls).foldlM (fun c call => partialFit E c call.1 call.2)
            (⟨some k, ⟨[], 0⟩, []⟩ : Cls F X S) := by
        rw [run, List.foldlM_cons, List.foldlM_cons]; rfl
      rw [← h1, h] at h2
      refine ⟨k, ?_⟩
      obtain ⟨⟨s', b'⟩, o, hs⟩ : ∃ q o, feed E.window (process E k) (⟨[], 0⟩, [])
        (((some k, xs) :: calls).flatMap Prod.snd) = (q, o) := ⟨_, _, rfl⟩
      simp only [hs] at h2
      cases o with
      | some e => cases h2
      | none =>
        cases h2
        exact feed_ok E.window hw (process E k) _ _ _ hs

theorem windows_trained (E : Env F X S) (k : List Int) (wins : List (List (X × Int))) (st : State F S)
    (h : wins.foldlM (process E k) ⟨[], 0⟩ = Except.ok st) :
    (E.pruning = .none → List.Forall₂ (TrainedOn E) st.members wins) ∧
    (E.pruning = .age → List.Forall₂ (TrainedOn E) st.members (lastN E.cap wins)) ∧
    (E.pruning = .error → ∃ ws, ws.Sublist wins ∧ ws.length = min E.cap wins.length ∧
      List.Forall₂ (TrainedOn E) st.members ws) := by
  induction wins using List.reverseRecOn generalizing st with
  | nil =>
    simp only [List.foldlM_nil, pure, Except.pure] at h
    cases h
    exact ⟨fun _ => .nil, fun _ => by simp [lastN], fun _ => ⟨[], by simp, by simp, .nil⟩⟩
  | append_singleton wins b ih =>
    rw [List.foldlM_append] at h
    cases h1 : wins.foldlM (process E k) ⟨[], 0⟩ with
    | error e => rw [h1] at h; cases h
    | ok st1 =>
      rw [h1] at h
      obtain ⟨i1, i2, i3⟩ := ih st1 h1
      simp only [bind, Except.bind, List.foldlM_cons, List.foldlM_nil, pure, Except.pure] at h
      cases h2 : process E k st1 b with
      | error e => rw [h2] at h; cases h
      | ok st2 =>
        rw [h2] at h
        cases h
        obtain ⟨iw, _, _, hm⟩ := process_ok E k st1 st b h2
        rw [hm]
        refine ⟨fun hp => ?_, fun hp => ?_, fun hp => ?_⟩
        · have := process_trained E st1.members st1.fits (st1.fits + 1) b iw wins (i1 hp)
          rw [prune, if_neg (by simp [hp]), if_neg (by simp [hp])]
          exact this
        · have := process_trained E st1.members st1.fits (st1.fits + 1) b iw _ (i2 hp)
          have hl := this.length_eq
          rw [List.length_map] at hl
          generalize ((st1.members ++ [newMem E st1.fits b]).mapIdx fun i m =>
            evalMember E (st1.fits + 1) b iw (st1.members.length - i) m) = res at this hl ⊢
          simp only [lastN, List.length_append, List.length_drop, List.length_singleton] at hl this ⊢
          by_cases hc : E.cap < res.length
          · rw [prune, if_pos ⟨hp, hc⟩]
            have hge : E.cap ≤ wins.length := by omega
            have heq : (wins ++ [b]).drop (wins.length + 1 - E.cap) = (wins.drop (wins.length - E.cap) ++ [b]).drop 1 := by
              rw [← List.drop_append_of_le_length (by omega), List.drop_drop]
              congr 1; omega
            rw [heq, List.eraseIdx_zero, ← List.drop_one]
            exact List.forall₂_drop 1 this
          · rw [prune, if_neg (fun hh => hc hh.2), if_neg (by simp [hp])]
            have e1 : wins.length - E.cap = 0 := by omega
            have e2 : wins.length + 1 - E.cap = 0 := by omega
            rw [e2]
            rw [e1] at this
            exact this
        · obtain ⟨ws, hs, hwl, hf⟩ := i3 hp
          have := process_trained E st1.members st1.fits (st1.fits + 1) b iw _ hf
          have hl := this.length_eq
          rw [List.length_map] at hl
          generalize ((st1.members ++ [newMem E st1.fits b]).mapIdx fun i m =>
            evalMember E (st1.fits + 1) b iw (st1.members.length - i) m) = res at this hl ⊢
          have hsub : (ws ++ [b]).Sublist (wins ++ [b]) := List.Sublist.append hs (List.Sublist.refl _)
          simp only [List.length_append, List.length_singleton] at hl ⊢
          by_cases hc : E.cap < res.length
          · rw [prune, if_neg (by simp [hp]), if_pos ⟨hp, hc⟩]
            generalize hj : amax (res.map Prod.snd) = j
            have hj' : j < res.length := by
              rw [← hj]
              have := amax_lt (res.map Prod.snd) (by
                intro hn
                rw [List.map_eq_nil_iff] at hn
                rw [hn] at hl
                simp at hl)
              simpa using this
            refine ⟨(ws ++ [b]).eraseIdx j, (List.eraseIdx_sublist _ _).trans hsub, ?_, ?_⟩
            · rw [List.length_eraseIdx, if_pos (by simp; omega)]
              simp only [List.length_append, List.length_singleton]
              omega
            · rw [List.eraseIdx_eq_take_drop_succ, List.eraseIdx_eq_take_drop_succ]
              exact List.rel_append (List.forall₂_take j this) (List.forall₂_drop (j + 1) this)
          · rw [prune, if_neg (by simp [hp]), if_neg (fun hh => hc hh.2)]
            refine ⟨ws ++ [b], hsub, ?_, this⟩
            rw [List.length_append, List.length_singleton]
            omega

/-- C149: after any history, the members are learners trained each on one full window of the
stream, and in order: on every window without pruning, on the last `n_estimators` windows
with pruning by age, on `n_estimators` of the windows (all, if there are fewer) with pruning
by error; the samples after the last full window wait in the buffer. -/
theorem C149_members (E : Env F X S) (hw : 0 < E.window) (calls : List (Option (List Int) × List (X × Int)))
    (c : Cls F X S) (h : run E calls = Except.ok c) :
    let stream := calls.flatMap Prod.snd
    c.buf = rest E.window stream ∧
    (E.pruning = .none → List.Forall₂ (TrainedOn E) c.st.members (windows E.window stream)) ∧
    (E.pruning = .age → List.Forall₂ (TrainedOn E) c.st.members (lastN E.cap (windows E.window stream))) ∧
    (E.pruning = .error → ∃ ws, ws.Sublist (windows E.window stream) ∧
      ws.length = min E.cap (stream.length / E.window) ∧ List.Forall₂ (TrainedOn E) c.st.members ws) := by
  intro stream
  obtain ⟨k, h1, h2⟩ := run_windows E hw calls c h
  obtain ⟨a, b, d⟩ := windows_trained E k _ _ h1
  refine ⟨h2, a, b, fun hp => ?_⟩
  obtain ⟨ws, e1, e2, e3⟩ := d hp
  exact ⟨ws, e1, by rw [e2, length_windows], e3⟩

/-- C149: with pruning by error the member dropped is the one with the largest error on the
window just processed, the oldest of them on a tie. -/
theorem C149_dropped (E : Env F X S) (k : List Int) (st st' : State F S) (b : List (X × Int))
    (hp : E.pruning = .error) (hc : st.members.length = E.cap) (h : process E k st b = Except.ok st') :
    ∃ (res : List (Member F S × F)) (j : Nat) (e : F), res.length = E.cap + 1 ∧
      st'.members = (res.map Prod.fst).eraseIdx j ∧ (res.map Prod.snd)[j]? = some e ∧
      (∀ r ∈ res, r.2 ≤ e) ∧ (∀ i r, i < j → res[i]? = some r → r.2 < e) ∧
      ∃ iw : List F, ∀ i r, res[i]? = some r → ∃ m, (st.members ++ [newMem E st.fits b])[i]? = some m ∧
        r.2 = (if i < E.cap then min (1 / 2) (weighted iw (wrongs E m.model b)) else weighted iw (wrongs E m.model b)) := by
  obtain ⟨iw, _, _, hm⟩ := process_ok E k st st' b h
  obtain ⟨e, h1, h2, h3⟩ := amax_spec
    (((st.members ++ [newMem E st.fits b]).mapIdx fun i m =>
        evalMember E (st.fits + 1) b iw (st.members.length - i) m).map Prod.snd) (by simp)
  refine ⟨_, _, e, ?_, ?_, h1, ?_, ?_, iw, ?_⟩
  · simp [hc]
  · rw [hm, prune, if_neg (by simp [hp]), if_pos ⟨hp, by simp [hc]⟩]
  · intro r hr
    exact h2 _ (List.mem_map_of_mem hr)
  · intro i r hi hr
    exact h3 i r.2 hi (by rw [List.getElem?_map, hr]; rfl)
  · intro i r hr
    rw [List.getElem?_mapIdx] at hr
    obtain ⟨m, hm', rfl⟩ := Option.map_eq_some_iff.mp hr
    refine ⟨m, hm', ?_⟩
    have hil : i < (st.members ++ [newMem E st.fits b]).length := (List.getElem?_eq_some_iff.mp hm').1
    rw [List.length_append, List.length_singleton] at hil
    unfold evalMember
    by_cases hi : i < E.cap
    · rw [if_pos hi]
      simp only
      rw [if_neg (fun hh => by have := hh.1; omega)]
      by_cases hg : 1 / 2 < weighted iw (wrongs E m.model b)
      · rw [if_pos hg, min_eq_left hg.le]
      · rw [if_neg hg, min_eq_right (not_lt.mp hg)]
    · rw [if_neg hi]
      have hz : st.members.length - i = 0 := by omega
      simp only [hz, true_and]
      by_cases hg : 1 / 2 < weighted iw (wrongs E m.model b)
      · rw [if_pos hg]
      · rw [if_neg hg, if_neg hg]

/-- A small environment for the examples: a learner predicts the first label of its batch. -/
def toy (p : Pruning) (cap : Nat) : Env ℚ Nat Int :=
  { fit := fun _ b => (b.map Prod.snd).headD 0, pred := fun s _ => s,
    proba := fun s _ => if s = 0 then [1, 0] else [0, 1], known := fun _ => some [0, 1],
    lg := fun x => x - 1, sig := fun _ => 1, eps := 1 / 1000, window := 2, cap := cap, pruning := p }

/-- Five samples in two calls, windows of two: two members and one waiting sample; with
pruning by error the older member, wrong on the second window, is the one dropped. -/
example : ((run (toy .none 1) [(some [0, 1], [(7, 0), (8, 0), (9, 1)]), (none, [(5, 1), (6, 0)])]).toOption.map
      fun c => (c.st.members.map (·.model), c.buf)) = some ([0, 1], [(6, 0)]) ∧
    ((run (toy .error 1) [(some [0, 1], [(7, 0), (8, 0), (9, 1)]), (none, [(5, 1), (6, 0)])]).toOption.map
      fun c => (c.st.members.map (·.model), c.buf)) = some ([1], [(6, 0)]) ∧
    ((run (toy .age 1) [(some [0, 1], [(7, 0), (8, 0), (9, 1)]), (none, [(5, 1), (6, 0)])]).toOption.map
      fun c => (c.st.members.map (·.model), c.buf)) = some ([1], [(6, 0)]) := by
  decide +kernel

end Verif.Meta.NSE
