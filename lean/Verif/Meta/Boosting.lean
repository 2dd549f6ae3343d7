import Verif.Lazy.KNN
import Mathlib.Algebra.Order.BigOperators.Group.List

/-!
Models of `meta/online_boosting.py` (rates, error estimates, voting) and of the drift
reaction shared by `leverage_bagging.py`, `oza_bagging_adwin.py`, `online_boosting.py`
and the other online ensembles; C43, C70, C72.

Simplifications: whether the Poisson draw was positive and whether the member then
predicts the sample correctly are arbitrary inputs; `np.log` is an arbitrary function;
an ADWIN detector is represented by the values in its window.
-/

namespace Verif.Meta.Boosting

open Verif.Lazy (argmax argmax_spec)

/-! ### Rates and error estimates -/

/-- Entries of `lam_sc`, `lam_sw`, `epsilon` for one member (lines 145-147). -/
structure Mem where
  sc : ℚ := 0
  sw : ℚ := 0
  eps : ℚ := 0

/-- Division that raises on zero. -/
def pdiv (a b : ℚ) : Except PyErr ℚ := if b = 0 then .error .zeroDivision else .ok (a / b)

/-- Lines 212-225 for one member: next rate and updated entries. -/
def memberStep (lam : ℚ) (m : Mem) (drew correct : Bool) : Except PyErr (ℚ × Mem) :=
  if !drew then .ok (lam, m)
  else if correct then do
    let sc := m.sc + lam
    let eps ← pdiv m.sw (m.sw + sc)
    let lam' ← if eps ≠ 0 then pdiv lam (2 * (1 - eps)) else .ok lam
    pure (lam', ⟨sc, m.sw, eps⟩)
  else do
    let sw := m.sw + lam
    let eps ← pdiv sw (sw + m.sc)
    let lam' ← if eps ≠ 0 then pdiv lam (2 * eps) else .ok lam
    pure (lam', ⟨m.sc, sw, eps⟩)

/-- Lines 209-225 for one sample: the rates passed to the Poisson sampler and the new
entries; `evs` tells for each member whether the draw was positive and whether the member
is correct afterwards. -/
def sampleStep : ℚ → List (Mem × Bool × Bool) → Except PyErr (List ℚ × List Mem)
  | _, [] => .ok ([], [])
  | lam, (m, drew, correct) :: rest => do
    let r ← memberStep lam m drew correct
    let q ← sampleStep r.1 rest
    pure (lam :: q.1, r.2 :: q.2)

/-- A stream: for each sample the outcomes for all members.  Returns all rates used. -/
def run : List Mem → List (List (Bool × Bool)) → Except PyErr (List ℚ × List Mem)
  | ms, [] => .ok ([], ms)
  | ms, evs :: rest => do
    let r ← sampleStep 1 (ms.zip evs)
    let q ← run r.2 rest
    pure (r.1 ++ q.1, q.2)

/-- Entries that can occur. -/
def Mem.Ok (m : Mem) : Prop := 0 ≤ m.sc ∧ 0 ≤ m.sw ∧ 0 ≤ m.eps ∧ m.eps ≤ 1

theorem memberStep_ok (lam : ℚ) (hl : 0 < lam) (m : Mem) (hm : m.Ok) (drew correct : Bool) :
    ∃ lam' m', memberStep lam m drew correct = .ok (lam', m') ∧ 0 < lam' ∧ m'.Ok ∧
      m'.sc = m.sc + (if drew && correct then lam else 0) ∧
      m'.sw = m.sw + (if drew && !correct then lam else 0) ∧
      (drew = true → m'.eps = m'.sw / (m'.sw + m'.sc)) ∧ (drew = false → m'.eps = m.eps) := by
  obtain ⟨h1, h2, h3, h4⟩ := hm
  cases drew with
  | false => exact ⟨lam, m, rfl, hl, ⟨h1, h2, h3, h4⟩, by simp, by simp, by simp, by simp⟩
  | true =>
    cases correct with
    | true =>
      have hd : 0 < m.sw + (m.sc + lam) := by linarith
      have he : 0 ≤ m.sw / (m.sw + (m.sc + lam)) := div_nonneg h2 (le_of_lt hd)
      have he1 : m.sw / (m.sw + (m.sc + lam)) < 1 := by rw [div_lt_one hd]; linarith
      set e := m.sw / (m.sw + (m.sc + lam)) with hee
      have hpd : pdiv m.sw (m.sw + (m.sc + lam)) = .ok e := by rw [pdiv, if_neg (ne_of_gt hd)]
      have hpos : 0 < 2 * (1 - e) := by linarith
      by_cases h0 : e ≠ 0
      · refine ⟨lam / (2 * (1 - e)), ⟨m.sc + lam, m.sw, e⟩, ?_, div_pos hl hpos,
          ⟨by show 0 ≤ m.sc + lam; linarith, h2, he, le_of_lt he1⟩, by simp, by simp, fun _ => hee, by simp⟩
        simp only [memberStep, Bool.not_true, Bool.false_eq_true, if_false, if_true, hpd, bind, Except.bind]
        rw [if_pos h0, pdiv, if_neg (ne_of_gt hpos)]; rfl
      · refine ⟨lam, ⟨m.sc + lam, m.sw, e⟩, ?_, hl,
          ⟨by show 0 ≤ m.sc + lam; linarith, h2, he, le_of_lt he1⟩, by simp, by simp, fun _ => hee, by simp⟩
        simp only [memberStep, Bool.not_true, Bool.false_eq_true, if_false, if_true, hpd, bind, Except.bind]
        rw [if_neg h0]; rfl
    | false =>
      have hd : 0 < m.sw + lam + m.sc := by linarith
      have he : 0 < (m.sw + lam) / (m.sw + lam + m.sc) := div_pos (by linarith) hd
      have he1 : (m.sw + lam) / (m.sw + lam + m.sc) ≤ 1 := by rw [div_le_one hd]; linarith
      set e := (m.sw + lam) / (m.sw + lam + m.sc) with hee
      have hpd : pdiv (m.sw + lam) (m.sw + lam + m.sc) = .ok e := by rw [pdiv, if_neg (ne_of_gt hd)]
      have hpos : 0 < 2 * e := by linarith
      refine ⟨lam / (2 * e), ⟨m.sc, m.sw + lam, e⟩, ?_, div_pos hl hpos,
        ⟨h1, by show 0 ≤ m.sw + lam; linarith, le_of_lt he, he1⟩, by simp, by simp, fun _ => hee, by simp⟩
      simp only [memberStep, Bool.not_true, Bool.false_eq_true, if_false, hpd, bind, Except.bind]
      rw [if_pos (ne_of_gt he), pdiv, if_neg (ne_of_gt hpos)]; rfl

theorem sampleStep_ok (lam : ℚ) (hl : 0 < lam) (l : List (Mem × Bool × Bool)) (h : ∀ a ∈ l, a.1.Ok) :
    ∃ rates ms, sampleStep lam l = .ok (rates, ms) ∧ rates.length = l.length ∧ ms.length = l.length ∧
      (∀ r ∈ rates, 0 < r) ∧ ∀ m ∈ ms, m.Ok := by
  induction l generalizing lam with
  | nil => exact ⟨[], [], rfl, rfl, rfl, by simp, by simp⟩
  | cons a l ih =>
    obtain ⟨m, drew, correct⟩ := a
    obtain ⟨lam', m', e1, hl', hm', _⟩ := memberStep_ok lam hl m (h (m, drew, correct) (by simp)) drew correct
    obtain ⟨rates, ms, e2, l1, l2, hr, hm⟩ := ih lam' hl' fun a ha => h a (by simp [ha])
    refine ⟨lam :: rates, m' :: ms, ?_, by simp [l1], by simp [l2], ?_, ?_⟩
    · simp only [sampleStep, e1, e2, bind, Except.bind, pure, Except.pure]
    · intro r hr'
      rcases List.mem_cons.mp hr' with rfl | h'
      · exact hl
      · exact hr r h'
    · intro x hx
      rcases List.mem_cons.mp hx with rfl | h'
      · exact hm'
      · exact hm x h'

/-- C43: for every stream and all outcomes, no division by zero happens, every rate
passed to the sampler is positive and all error estimates lie in [0,1]. -/
theorem C43_rates_positive (n : Nat) (evs : List (List (Bool × Bool))) (hlen : ∀ e ∈ evs, e.length = n) :
    ∃ rates ms, run (List.replicate n {}) evs = .ok (rates, ms) ∧ rates.length = n * evs.length ∧
      ms.length = n ∧ (∀ r ∈ rates, 0 < r) ∧ ∀ m ∈ ms, 0 ≤ m.eps ∧ m.eps ≤ 1 := by
  have gen : ∀ (evs : List (List (Bool × Bool))) (ms : List Mem), (∀ e ∈ evs, e.length = n) → ms.length = n →
      (∀ m ∈ ms, m.Ok) → ∃ rates ms', run ms evs = .ok (rates, ms') ∧ rates.length = n * evs.length ∧
      ms'.length = n ∧ (∀ r ∈ rates, 0 < r) ∧ ∀ m ∈ ms', m.Ok := by
    intro evs
    induction evs with
    | nil => intro ms _ hn hm; exact ⟨[], ms, rfl, by simp, hn, by simp, hm⟩
    | cons e evs ih =>
      intro ms hl hn hm
      have hzl : (ms.zip e).length = n := by
        rw [List.length_zip, hn, hl e (by simp)]; omega
      obtain ⟨rates, ms1, e1, l1, l2, hr, hm1⟩ := sampleStep_ok 1 one_pos (ms.zip e) (by
        intro a ha; exact hm a.1 (List.of_mem_zip ha).1)
      obtain ⟨rates2, ms2, e2, l3, l4, hr2, hm2⟩ := ih ms1 (fun e he => hl e (by simp [he])) (by omega) hm1
      refine ⟨rates ++ rates2, ms2, ?_, ?_, l4, ?_, hm2⟩
      · simp only [run, e1, e2, bind, Except.bind, pure, Except.pure]
      · rw [List.length_append, l1, hzl, l3, List.length_cons, Nat.mul_succ]; omega
      · intro r h'
        rcases List.mem_append.mp h' with h' | h'
        · exact hr r h'
        · exact hr2 r h'
  obtain ⟨rates, ms, e, l1, l2, hr, hm⟩ := gen evs (List.replicate n {}) hlen (by simp) (by
    intro m hm
    rw [List.eq_of_mem_replicate hm]
    exact ⟨le_refl _, le_refl _, le_refl _, by norm_num⟩)
  exact ⟨rates, ms, e, l1, l2, hr, fun m h' => ⟨(hm m h').2.2.1, (hm m h').2.2.2⟩⟩

/-- One member over a stream: incoming rate, draw positive, correct. -/
def memberRun (m : Mem) (h : List (ℚ × Bool × Bool)) : Except PyErr Mem :=
  h.foldlM (fun m a => (memberStep a.1 m a.2.1 a.2.2).map Prod.snd) m

/-- Total rate of the samples drawn that the member got right / wrong. -/
def rightRate (h : List (ℚ × Bool × Bool)) : ℚ := (h.map fun a => if a.2.1 && a.2.2 then a.1 else 0).sum
/-- See `rightRate`. -/
def wrongRate (h : List (ℚ × Bool × Bool)) : ℚ := (h.map fun a => if a.2.1 && !a.2.2 then a.1 else 0).sum

/-- C43: the error estimate of a member is the share of rate on which it erred, among
the samples drawn for it (0 before the first draw). -/
theorem C43_error_estimate (h : List (ℚ × Bool × Bool)) (hpos : ∀ a ∈ h, 0 < a.1) :
    ∃ m, memberRun {} h = .ok m ∧
      m.eps = if h.any (fun a => a.2.1) then wrongRate h / (wrongRate h + rightRate h) else 0 := by
  have gen : ∀ h : List (ℚ × Bool × Bool), (∀ a ∈ h, 0 < a.1) → ∃ m, memberRun {} h = .ok m ∧ m.Ok ∧
      m.sc = rightRate h ∧ m.sw = wrongRate h ∧
      m.eps = if h.any (fun a => a.2.1) then wrongRate h / (wrongRate h + rightRate h) else 0 := by
    intro h
    induction h using List.reverseRecOn with
    | nil =>
      intro _
      exact ⟨{}, rfl, ⟨le_refl _, le_refl _, le_refl _, by norm_num⟩, rfl, rfl, by simp⟩
    | append_singleton h a ih =>
      intro hp
      obtain ⟨m, e1, ok, s1, s2, e2⟩ := ih fun a ha => hp a (by simp [ha])
      obtain ⟨lam', m', e3, _, ok', t1, t2, t3, t4⟩ := memberStep_ok a.1 (hp a (by simp)) m ok a.2.1 a.2.2
      have hr : rightRate (h ++ [a]) = m'.sc := by
        rw [t1, s1]; simp [rightRate]
      have hw : wrongRate (h ++ [a]) = m'.sw := by
        rw [t2, s2]; simp [wrongRate]
      refine ⟨m', ?_, ok', hr.symm, hw.symm, ?_⟩
      · rw [memberRun, List.foldlM_append]
        rw [memberRun] at e1
        rw [e1]
        simp only [bind, Except.bind, List.foldlM_cons, List.foldlM_nil, e3, Except.map, pure, Except.pure]
      · rw [hr, hw, List.any_append]
        cases hd : a.2.1 with
        | true => rw [if_pos (by simp [hd])]; exact t3 hd
        | false =>
          have hm : m'.sc = m.sc ∧ m'.sw = m.sw := by rw [t1, t2, hd]; simp
          have ha : ([a].any fun a => a.2.1) = false := by simp [hd]
          rw [t4 hd, e2, hm.1, hm.2, s1, s2, ha, Bool.or_false]
  obtain ⟨m, e, _, _, _, he⟩ := gen h hpos
  exact ⟨m, e, he⟩

example : (match run [{}, {}] [[(true, true), (true, false)], [(true, false), (true, true)], [(false, true), (true, true)]] with
    | .ok (rates, ms) => some (rates, ms.map Mem.eps)
    | .error _ => none) = some ([1, 1, 1, 1, 1, 1], [1/2, 1/3]) := by decide +kernel

/-! ### Voting -/

/-- Lines 336-345 for one row, one member and one class: entries beyond the row are
appended unweighted; a zero error estimate (division by zero) or a unit one (logarithm of
zero) makes the contribution be skipped. -/
def addVote (log : ℚ → ℚ) (eps : ℚ) (row : List ℚ) (kp : Nat × ℚ) : List ℚ :=
  if kp.1 < row.length then
    if eps = 0 ∨ eps = 1 then row else row.modify kp.1 (· + log ((1 - eps) / eps) * kp.2)
  else row ++ [kp.2]

/-- One member's votes for a row. -/
def addMember (log : ℚ → ℚ) (row : List ℚ) (m : ℚ × List ℚ) : List ℚ :=
  ((List.range m.2.length).zip m.2).foldl (addVote log m.1) row

/-- `predict_proba` for one row before normalisation, lines 326-345; members are given by
error estimate and their class probabilities for the row. -/
def protoRow (log : ℚ → ℚ) (ms : List (ℚ × List ℚ)) : List ℚ :=
  match ms with
  | [] => []
  | m :: _ => ms.foldl (addMember log) (m.2.map fun _ => 0)

/-- Lines 352-361. -/
def normaliseRow (row : List ℚ) : List ℚ := if row.sum > 0 then row.map (· / row.sum) else row

/-- `predict` for one row, lines 282-289. -/
def predictRow (log : ℚ → ℚ) (ms : List (ℚ × List ℚ)) : Nat := argmax (normaliseRow (protoRow log ms))

theorem addMember_skip (log : ℚ → ℚ) (row : List ℚ) (m : ℚ × List ℚ) (he : m.1 = 0 ∨ m.1 = 1)
    (hl : m.2.length = row.length) : addMember log row m = row := by
  have : ∀ (l : List (Nat × ℚ)), (∀ a ∈ l, a.1 < row.length) → l.foldl (addVote log m.1) row = row := by
    intro l
    induction l with
    | nil => intro _; rfl
    | cons a l ih =>
      intro h
      rw [List.foldl_cons]
      have : addVote log m.1 row a = row := by
        rw [addVote, if_pos (h a (by simp)), if_pos he]
      rw [this]
      exact ih fun a ha => h a (by simp [ha])
  apply this
  intro a ha
  have := (List.of_mem_zip ha).1
  rw [List.mem_range] at this
  omega

theorem argmax_zeros (k : Nat) : argmax (List.replicate k (0 : ℚ)) = 0 := by
  cases k with
  | zero => rfl
  | succ k =>
    obtain ⟨v, h1, h2, h3⟩ := argmax_spec (List.replicate (k + 1) (0 : ℚ)) (by simp)
    by_contra hne
    have h0 : (List.replicate (k + 1) (0 : ℚ))[0]? = some 0 := by simp
    have := h3 0 0 (by omega) h0
    have hv := List.mem_of_getElem? h1
    rw [List.eq_of_mem_replicate hv] at this
    exact lt_irrefl _ this

/-- C72 (violated): while no member has erred yet (or every member always erred), all votes
are dropped and class 0 is predicted for every row, whatever the members say. -/
theorem C72_perfect_members_ignored_violated (log : ℚ → ℚ) (K : Nat) (ms : List (ℚ × List ℚ))
    (hK : ∀ m ∈ ms, m.2.length = K) (he : ∀ m ∈ ms, m.1 = 0 ∨ m.1 = 1) : predictRow log ms = 0 := by
  cases ms with
  | nil => rfl
  | cons m ms =>
    have hz : ∀ l : List (ℚ × List ℚ), (∀ m ∈ l, m.2.length = K ∧ (m.1 = 0 ∨ m.1 = 1)) →
        l.foldl (addMember log) (List.replicate K 0) = List.replicate K 0 := by
      intro l
      induction l with
      | nil => intro _; rfl
      | cons a l ih =>
        intro h
        rw [List.foldl_cons, addMember_skip log _ a (h a (by simp)).2 (by simp [(h a (by simp)).1])]
        exact ih fun a ha => h a (by simp [ha])
    have hinit : m.2.map (fun _ => (0 : ℚ)) = List.replicate K 0 := by
      rw [List.map_const', hK m (by simp)]
    have : protoRow log (m :: ms) = List.replicate K 0 := by
      simp only [protoRow]
      rw [hinit]
      exact hz (m :: ms) fun a ha => ⟨hK a ha, he a ha⟩
    rw [predictRow, this, normaliseRow]
    simp only [List.sum_replicate, smul_zero, gt_iff_lt, lt_self_iff_false, if_false]
    exact argmax_zeros K

/-- The hypotheses are met: two members certain of class 1. -/
example : predictRow id [(0, [0, 1]), (0, [0, 1])] = 0 :=
  C72_perfect_members_ignored_violated id 2 _ (by simp) (by simp)

theorem addMember_add (log : ℚ → ℚ) (row : List ℚ) (m : ℚ × List ℚ) (he : m.1 ≠ 0 ∧ m.1 ≠ 1)
    (hl : m.2.length = row.length) (k : Nat) (v p : ℚ) (hv : row[k]? = some v) (hp : m.2[k]? = some p) :
    (addMember log row m)[k]? = some (v + log ((1 - m.1) / m.1) * p) ∧
    (addMember log row m).length = row.length := by
  obtain ⟨eps, ps⟩ := m
  simp only at he hl hp
  have gen : ∀ (ps : List ℚ) (s : Nat) (row : List ℚ), s + ps.length = row.length →
      (((List.range' s ps.length).zip ps).foldl (addVote log eps) row).length = row.length ∧
      ∀ k v, row[k]? = some v →
        (((List.range' s ps.length).zip ps).foldl (addVote log eps) row)[k]? =
          some (if s ≤ k then v + log ((1 - eps) / eps) * ((ps[k - s]?).getD 0) else v) := by
    intro ps
    induction ps with
    | nil =>
      intro s row _
      refine ⟨rfl, ?_⟩
      intro k v hv
      simp [hv]
    | cons p ps ih =>
      intro s row hlen
      simp only [List.length_cons, List.range'_succ, List.zip_cons_cons, List.foldl_cons]
      have hs : s < row.length := by simp only [List.length_cons] at hlen; omega
      have hav : addVote log eps row (s, p) = row.modify s (· + log ((1 - eps) / eps) * p) := by
        rw [addVote, if_pos hs, if_neg (by rintro (h | h); exacts [he.1 h, he.2 h])]
      rw [hav]
      obtain ⟨h1, h2⟩ := ih (s + 1) (row.modify s (· + log ((1 - eps) / eps) * p)) (by
        simp only [List.length_cons] at hlen; simp; omega)
      refine ⟨by rw [h1]; simp, ?_⟩
      intro k v hv
      have hmod : (row.modify s (· + log ((1 - eps) / eps) * p))[k]? =
          some (if s = k then v + log ((1 - eps) / eps) * p else v) := by
        rw [List.getElem?_modify, hv]
        by_cases hsk : s = k
        · simp [hsk]
        · simp [hsk]
      rw [h2 k _ hmod]
      congr 1
      by_cases hsk : s = k
      · subst hsk; simp
      · by_cases hlt : s ≤ k
        · rw [if_pos (by omega), if_neg hsk, if_pos hlt]
          have : k - s = (k - (s + 1)) + 1 := by omega
          rw [this, List.getElem?_cons_succ]
        · rw [if_neg (by omega), if_neg hsk, if_neg hlt]
  obtain ⟨h1, h2⟩ := gen ps 0 row (by omega)
  unfold addMember
  simp only [List.range_eq_range']
  refine ⟨?_, h1⟩
  rw [h2 k v hv]
  simp [hp]

/-- C72 (what holds): when all error estimates are strictly between 0 and 1 and the members
know the same `K` classes, the unnormalised vote for a class is the sum over the members of
log-odds times probability. -/
theorem C72_weighted_vote_partial (log : ℚ → ℚ) (K : Nat) (m : ℚ × List ℚ) (ms : List (ℚ × List ℚ))
    (hK : ∀ a ∈ m :: ms, a.2.length = K) (he : ∀ a ∈ m :: ms, a.1 ≠ 0 ∧ a.1 ≠ 1) (k : Nat) (hk : k < K) :
    (protoRow log (m :: ms))[k]? =
      some (((m :: ms).map fun a => log ((1 - a.1) / a.1) * (a.2[k]?).getD 0).sum) := by
  have gen : ∀ (l : List (ℚ × List ℚ)) (row : List ℚ) (v : ℚ), row.length = K → row[k]? = some v →
      (∀ a ∈ l, a.2.length = K ∧ a.1 ≠ 0 ∧ a.1 ≠ 1) →
      (l.foldl (addMember log) row)[k]? =
        some (v + (l.map fun a => log ((1 - a.1) / a.1) * (a.2[k]?).getD 0).sum) := by
    intro l
    induction l with
    | nil => intro row v _ hv _; simp [hv]
    | cons a l ih =>
      intro row v hl hv h
      obtain ⟨a1, a2⟩ := h a (by simp)
      have hp : a.2[k]? = some ((a.2[k]?).getD 0) := by
        rw [List.getElem?_eq_getElem (by omega)]; rfl
      obtain ⟨h1, h2⟩ := addMember_add log row a a2 (by omega) k v _ hv hp
      rw [List.foldl_cons, ih _ _ (by rw [h2, hl]) h1 fun b hb => h b (by simp [hb])]
      simp only [List.map_cons, List.sum_cons]
      congr 1; ring
  simp only [protoRow]
  have := gen (m :: ms) (m.2.map fun _ => 0) 0 (by simp [hK m (by simp)])
    (by rw [List.getElem?_map, List.getElem?_eq_getElem (by have := hK m (by simp); omega)]; rfl)
    (fun a ha => ⟨hK a ha, he a ha⟩)
  rw [this]; simp

example : protoRow id [(1/4, [1/2, 1/2]), (1/2, [0, 1])] = [3/2, 5/2] := by decide +kernel

/-- C72: `predict_proba` returns, for a row whose votes have a positive total, the votes
divided by that total, hence numbers that sum to 1; otherwise the votes as they are. -/
theorem C72_probabilities_partial (log : ℚ → ℚ) (ms : List (ℚ × List ℚ)) :
    (0 < (protoRow log ms).sum → (normaliseRow (protoRow log ms)).sum = 1 ∧
      ∀ (k : Nat) (v : ℚ), (protoRow log ms)[k]? = some v →
        (normaliseRow (protoRow log ms))[k]? = some (v / (protoRow log ms).sum)) ∧
    ((protoRow log ms).sum ≤ 0 → normaliseRow (protoRow log ms) = protoRow log ms) := by
  generalize protoRow log ms = row
  constructor
  · intro h
    rw [normaliseRow, if_pos h]
    constructor
    · have gen : ∀ (l : List ℚ) (c : ℚ), (l.map (· / c)).sum = l.sum / c := by
        intro l c
        induction l with
        | nil => simp
        | cons a l ih => simp only [List.map_cons, List.sum_cons, ih]; ring
      rw [gen, div_self (ne_of_gt h)]
    · intro k v hv
      simp [hv]
  · intro h
    rw [normaliseRow, if_neg (not_lt.mpr h)]

/-- C72 (violated): a class that only the last member knows of receives that member's
probability as it is, not weighted by the member's log-odds. -/
theorem C72_new_class_unweighted_violated (log : ℚ → ℚ) (m0 : ℚ × List ℚ) (ms : List (ℚ × List ℚ))
    (m : ℚ × List ℚ) (k : Nat) (hk : ∀ a ∈ m0 :: ms, a.2.length ≤ k) :
    (protoRow log (m0 :: ms ++ [m]))[k]? = m.2[k]? := by
  have gen : ∀ (eps : ℚ) (ps : List ℚ) (s : Nat) (row : List ℚ), s ≤ row.length →
      let r := ((List.range' s ps.length).zip ps).foldl (addVote log eps) row
      r.length = max row.length (s + ps.length) ∧
      ∀ k, row.length ≤ k → r[k]? = ps[k - s]? := by
    intro eps ps
    induction ps with
    | nil =>
      intro s row hs
      refine ⟨by simp; omega, fun k hk => ?_⟩
      simp [hk]
    | cons p ps ih =>
      intro s row hs
      simp only [List.length_cons, List.range'_succ, List.zip_cons_cons, List.foldl_cons]
      by_cases hlt : s < row.length
      · have hl : (addVote log eps row (s, p)).length = row.length := by
          rw [addVote, if_pos hlt]; split_ifs <;> simp
        obtain ⟨h1, h2⟩ := ih (s + 1) (addVote log eps row (s, p)) (by omega)
        refine ⟨by rw [h1, hl]; omega, fun k hk => ?_⟩
        rw [h2 k (by omega), show k - s = (k - (s + 1)) + 1 by omega, List.getElem?_cons_succ]
      · have hav : addVote log eps row (s, p) = row ++ [p] := by rw [addVote, if_neg hlt]
        rw [hav]
        obtain ⟨h1, h2⟩ := ih (s + 1) (row ++ [p]) (by simp; omega)
        refine ⟨by rw [h1]; simp; omega, fun k hk => ?_⟩
        by_cases hkl : k = row.length
        · subst hkl
          have hsl : s = row.length := by omega
          -- the new entry is not touched by later ones
          have keep : ∀ (l : List (Nat × ℚ)) (row' : List ℚ), (∀ a ∈ l, row.length < a.1) →
              row'[row.length]? = some p → (l.foldl (addVote log eps) row')[row.length]? = some p := by
            intro l
            induction l with
            | nil => intro row' _ h; exact h
            | cons a l ihl =>
              intro row' ha h
              rw [List.foldl_cons]
              refine ihl _ (fun b hb => ha b (by simp [hb])) ?_
              have hlt' := (List.getElem?_eq_some_iff.mp h).1
              have := ha a (by simp)
              rw [addVote]
              split_ifs
              · exact h
              · simp [List.getElem?_modify, h, show ¬ a.1 = row.length by omega]
              · rw [List.getElem?_append_left hlt']; exact h
          rw [keep _ _ _ (by simp), hsl]
          · simp
          · intro a ha
            have := (List.of_mem_zip ha).1
            have := (List.mem_range'_1.mp this).1
            omega
        · rw [h2 k (by simp; omega), show k - s = (k - (s + 1)) + 1 by omega, List.getElem?_cons_succ]
  have len : ∀ (l : List (ℚ × List ℚ)) (row : List ℚ), row.length ≤ k → (∀ a ∈ l, a.2.length ≤ k) →
      (l.foldl (addMember log) row).length ≤ k := by
    intro l
    induction l with
    | nil => intro row h _; exact h
    | cons a l ih =>
      intro row h ha
      rw [List.foldl_cons]
      refine ih _ ?_ fun b hb => ha b (by simp [hb])
      have h1 := (gen a.1 a.2 0 row (by omega)).1
      unfold addMember
      rw [List.range_eq_range', h1]
      have := ha a (by simp)
      omega
  simp only [List.cons_append, protoRow]
  rw [← List.cons_append, List.foldl_append, List.foldl_cons, List.foldl_nil]
  have h1 := len (m0 :: ms) (m0.2.map fun _ => 0) (by simpa using hk m0 (by simp)) hk
  have h2 := (gen m.1 m.2 0 _ (Nat.zero_le _)).2 k h1
  unfold addMember at h2 ⊢
  rw [List.range_eq_range']
  simp only [List.range_eq_range'] at h2 ⊢
  rw [h2]; rfl

/-- Log-odds `id 3`, but the new class gets 1/2 instead of 3/2. -/
example : protoRow id [(1/4, [1]), (1/4, [1/2, 1/2])] = [9/2, 1/2] := by decide +kernel

/-! ### Reaction to drift -/

/-- The search for `i_max`, leverage_bagging.py 295-300 (same text in
oza_bagging_adwin.py 192-197, online_boosting.py 242-247 and the others): first
position of the largest positive detector estimation. -/
def pickMax (ests : List ℚ) : Option Nat :=
  (ests.foldl (fun (st : ℚ × Option Nat × Nat) e =>
    if st.1 < e then (e, some st.2.2, st.2.2 + 1) else (st.1, st.2.1, st.2.2 + 1)) (0, none, 0)).2.1

/-- Mean of 0/1 values in a detector window (0 for the empty window). -/
def mean01 (l : List Bool) : ℚ := if l.length = 0 then 0 else (l.count true : ℚ) / l.length

/-- Leveraging bagging: the windows hold "was wrong" (line 286).  Member reset. -/
def leverageReset (correct : List (List Bool)) : Option Nat :=
  pickMax (correct.map fun w => mean01 (w.map (!·)))

/-- OzaBaggingADWIN and the online boosting family: the windows hold "was right"
(oza_bagging_adwin.py 180-183, online_boosting.py 233).  Member reset. -/
def accuracyReset (correct : List (List Bool)) : Option Nat := pickMax (correct.map mean01)

theorem pickMax_spec (ests : List ℚ) :
    (∀ i, pickMax ests = some i → ∃ v, ests[i]? = some v ∧ 0 < v ∧ ∀ w ∈ ests, w ≤ v) ∧
    (pickMax ests = none → ∀ w ∈ ests, w ≤ 0) := by
  have gen : ∀ (l pre : List ℚ) (m : ℚ) (o : Option Nat), (∀ w ∈ pre, w ≤ m) →
      ((o = none ∧ m = 0) ∨ ∃ i, o = some i ∧ pre[i]? = some m ∧ 0 < m) →
      let r := l.foldl (fun (st : ℚ × Option Nat × Nat) e =>
        if st.1 < e then (e, some st.2.2, st.2.2 + 1) else (st.1, st.2.1, st.2.2 + 1)) (m, o, pre.length)
      (∀ w ∈ pre ++ l, w ≤ r.1) ∧ ((r.2.1 = none ∧ r.1 = 0) ∨
        ∃ i, r.2.1 = some i ∧ (pre ++ l)[i]? = some r.1 ∧ 0 < r.1) := by
    intro l
    induction l with
    | nil => intro pre m o h1 h2; simpa using ⟨h1, h2⟩
    | cons e l ih =>
      intro pre m o h1 h2
      simp only [List.foldl_cons]
      have hlen : pre.length + 1 = (pre ++ [e]).length := by simp
      have hm0 : 0 ≤ m := by
        rcases h2 with ⟨_, h⟩ | ⟨_, _, _, h⟩
        · rw [h]
        · exact le_of_lt h
      by_cases hlt : m < e
      · rw [if_pos hlt, hlen]
        have := ih (pre ++ [e]) e (some pre.length) (by
          intro w hw
          rcases List.mem_append.mp hw with h | h
          · exact le_trans (h1 w h) (le_of_lt hlt)
          · rw [List.mem_singleton.mp h]) (.inr ⟨_, rfl, by simp, lt_of_le_of_lt hm0 hlt⟩)
        simpa using this
      · rw [if_neg hlt, hlen]
        have := ih (pre ++ [e]) m o (by
          intro w hw
          rcases List.mem_append.mp hw with h | h
          · exact h1 w h
          · rw [List.mem_singleton.mp h]; exact not_lt.mp hlt) (by
          rcases h2 with h | ⟨i, a, b, c⟩
          · exact .inl h
          · refine .inr ⟨i, a, ?_, c⟩
            rw [List.getElem?_append_left (List.getElem?_eq_some_iff.mp b).1]; exact b)
        simpa using this
  obtain ⟨h1, h2⟩ := gen ests [] 0 none (by simp) (.inl ⟨rfl, rfl⟩)
  simp only [List.nil_append, List.length_nil] at h1 h2
  constructor
  · intro i hi
    rcases h2 with ⟨a, _⟩ | ⟨j, a, b, c⟩
    · unfold pickMax at hi; rw [a] at hi; cases hi
    · unfold pickMax at hi
      rw [a] at hi
      simp only [Option.some.injEq] at hi
      subst hi
      exact ⟨_, b, c, h1⟩
  · intro hn w hw
    rcases h2 with ⟨_, b⟩ | ⟨j, a, _, _⟩
    · rw [← b]; exact h1 w hw
    · unfold pickMax at hn; rw [a] at hn; cases hn

/-- Accuracy of a member over its detector window: fraction of samples it got right. -/
def accuracy (w : List Bool) : ℚ := (w.count true : ℚ) / w.length

theorem count_add (w : List Bool) : w.count true + (w.map (!·)).count true = w.length := by
  induction w with
  | nil => rfl
  | cons b w ih => cases b <;> simp [List.count_cons] at * <;> omega

/-- C70 (what holds): leveraging bagging resets a member of least accuracy; and none only
if all members are fully accurate. -/
theorem C70_leverage_resets_worst_partial (correct : List (List Bool)) (hne : ∀ w ∈ correct, w ≠ []) :
    (∀ i, leverageReset correct = some i → ∃ w, correct[i]? = some w ∧
      ∀ w' ∈ correct, accuracy w ≤ accuracy w') ∧
    (leverageReset correct = none → ∀ w ∈ correct, accuracy w = 1) := by
  have hval : ∀ w ∈ correct, mean01 (w.map (!·)) = 1 - accuracy w := by
    intro w hw
    have hl : w.length ≠ 0 := by
      intro h; exact hne w hw (List.length_eq_zero_iff.mp h)
    have hlq : (w.length : ℚ) ≠ 0 := by exact_mod_cast hl
    have hc : (w.count true : ℚ) + ((w.map (!·)).count true : ℚ) = w.length := by exact_mod_cast count_add w
    rw [mean01, if_neg (by simpa using hl), accuracy, List.length_map]
    field_simp; linarith
  obtain ⟨h1, h2⟩ := pickMax_spec (correct.map fun w => mean01 (w.map (!·)))
  constructor
  · intro i hi
    obtain ⟨v, hv, _, hmax⟩ := h1 i hi
    rw [List.getElem?_map] at hv
    cases hc : correct[i]? with
    | none => rw [hc] at hv; cases hv
    | some w =>
      rw [hc] at hv
      simp only [Option.map_some, Option.some.injEq] at hv
      refine ⟨w, rfl, ?_⟩
      intro w' hw'
      have := hmax _ (List.mem_map_of_mem hw')
      rw [← hv, hval w' hw', hval w (List.mem_of_getElem? hc)] at this
      linarith
  · intro hn w hw
    have h3 := h2 hn _ (List.mem_map_of_mem hw)
    rw [hval w hw] at h3
    have hl : (0 : ℚ) < w.length := by
      have := List.length_pos_of_ne_nil (hne w hw)
      exact_mod_cast this
    have h4 : accuracy w ≤ 1 := by
      rw [accuracy, div_le_one hl]
      exact_mod_cast List.count_le_length
    linarith

/-- C70 (violated): OzaBaggingADWIN and the online boosting/bagging family, whose detectors
see accuracy, reset a member of greatest accuracy. -/
theorem C70_accuracy_fed_resets_best_violated (correct : List (List Bool)) (hne : ∀ w ∈ correct, w ≠ [])
    (i : Nat) (hi : accuracyReset correct = some i) :
    ∃ w, correct[i]? = some w ∧ ∀ w' ∈ correct, accuracy w' ≤ accuracy w := by
  have hval : ∀ w ∈ correct, mean01 w = accuracy w := by
    intro w hw
    rw [mean01, if_neg (by intro h; exact hne w hw (List.length_eq_zero_iff.mp h)), accuracy]
  obtain ⟨h1, _⟩ := pickMax_spec (correct.map mean01)
  obtain ⟨v, hv, _, hmax⟩ := h1 i hi
  rw [List.getElem?_map] at hv
  cases hc : correct[i]? with
  | none => rw [hc] at hv; cases hv
  | some w =>
    rw [hc] at hv
    simp only [Option.map_some, Option.some.injEq] at hv
    refine ⟨w, rfl, ?_⟩
    intro w' hw'
    have := hmax _ (List.mem_map_of_mem hw')
    rw [← hv, hval w' hw', hval w (List.mem_of_getElem? hc)] at this
    exact this

/-- One good and one bad member: leveraging bagging resets the bad one, the others the good one. -/
example : leverageReset [[true, true, true], [false, false, true]] = some 1 ∧
    accuracyReset [[true, true, true], [false, false, true]] = some 0 := by decide +kernel

end Verif.Meta.Boosting
