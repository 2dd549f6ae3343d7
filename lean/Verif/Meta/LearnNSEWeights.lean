import Verif.Meta.LearnNSEProps
import Mathlib.Algebra.Order.BigOperators.Group.List
import Mathlib.Algebra.BigOperators.Ring.List
import Mathlib.Algebra.Order.Archimedean.Basic
import Mathlib.Tactic.Positivity
import Mathlib.Tactic.FieldSimp
import Mathlib.Tactic.Ring
import Mathlib.Tactic.NormNum

/-!
C150: the instance weights and the voting weights of a `LearnPPNSEClassifier`.
-/

namespace Verif.Meta.NSE

open Windows

variable {F X S : Type} [Field F] [LinearOrder F]

/-- Specification: the weights of the first `n` scores of a member; the score at age `a` gets
`sig a`, divided by itself plus the weights already given. -/
def wts (sig : Nat → F) : Nat → List F
  | 0 => []
  | n + 1 => wts sig n ++ [sig n / ((wts sig n).sum + sig n)]

/-- Specification: the weighted sum of the normalised errors `e / (1 - e)`. -/
def wsum (sig : Nat → F) (es : List F) : F :=
  (List.zipWith (fun e w => e / (1 - e) * w) es (wts sig es.length)).sum

/-- Specification: the voting weight of a member with errors `es`: the logarithm of the
inverse of the weighted sum; minus infinity (`none`) once an error was 1. -/
def votingWeight (E : Env F X S) (es : List F) : Option F :=
  if 1 ∈ es then none else some (E.lg (1 / (wsum E.sig es + E.eps)))

theorem length_wts (sig : Nat → F) (n : Nat) : (wts sig n).length = n := by
  induction n with
  | zero => rfl
  | succ n ih => simp [wts, ih]

theorem none_mem_beta (es : List F) : none ∈ es.map beta ↔ 1 ∈ es := by
  rw [List.mem_map]
  constructor
  · rintro ⟨e, he, hb⟩
    by_cases h1 : e = 1
    · exact h1 ▸ he
    · rw [beta, if_neg h1] at hb; cases hb
  · intro h
    exact ⟨1, h, by simp [beta]⟩

/-- What the fields of a member are after the scores `es`. -/
def Scored (E : Env F X S) (m : Member F S) (es : List F) : Prop :=
  m.bkts = es.map beta ∧ m.wkts = wts E.sig es.length ∧ (es ≠ [] → m.vw = votingWeight E es)

theorem sbkt_eq (E : Env F X S) (es : List F) :
    (sbkt E.eps (es.map beta) (wts E.sig es.length)).map (fun s => E.lg (1 / s)) = votingWeight E es := by
  unfold sbkt votingWeight
  by_cases h : 1 ∈ es
  · rw [if_pos ((none_mem_beta es).mpr h), if_pos h]; rfl
  · rw [if_neg (fun hh => h ((none_mem_beta es).mp hh)), if_neg h, Option.map_some]
    congr 4
    rw [wsum]
    generalize wts E.sig es.length = ws
    induction es generalizing ws with
    | nil => simp
    | cons e es ih =>
      cases ws with
      | nil => simp
      | cons w ws =>
        have he : e ≠ 1 := fun he => h (by simp [he])
        simp only [List.map_cons, List.zip_cons_cons, List.zipWith_cons_cons, List.sum_cons]
        rw [ih (fun hh => h (by simp [hh]))]
        simp [beta, he]

theorem score_scored (E : Env F X S) (m : Member F S) (es : List F) (e : F) (h : Scored E m es) :
    Scored E (score E es.length e m) (es ++ [e]) := by
  obtain ⟨h1, h2, _⟩ := h
  have hb : (score E es.length e m).bkts = (es ++ [e]).map beta := by simp [score, h1]
  have hw : (score E es.length e m).wkts = wts E.sig (es ++ [e]).length := by
    simp [score, h2, wts]
  refine ⟨hb, hw, fun _ => ?_⟩
  have hv : (score E es.length e m).vw =
      (sbkt E.eps (score E es.length e m).bkts (score E es.length e m).wkts).map (fun s => E.lg (1 / s)) := rfl
  rw [hv, hb, hw, sbkt_eq]

theorem scored_model (E : Env F X S) (m : Member F S) (s : S) (es : List F) (h : Scored E m es) :
    Scored E { m with model := s } es := h

/-- Specification: the error recorded for a learner on a window, under instance weights: the
weight of the samples it gets wrong, cut at one half. -/
def cutError (E : Env F X S) (s : S) (iw : List F) (b : List (X × Int)) : F :=
  min (1 / 2) (weighted iw (wrongs E s b))

/-- Specification: the history of the errors of member `i`: on the window it was trained on,
the error of the learner first trained; on each later window its own error, cut at one half. -/
def Errors (E : Env F X S) (wins : List (List (X × Int))) (iws : List (List F)) (i : Nat) (s : S) (es : List F) : Prop :=
  es.length = wins.length - i ∧
  (∀ e, es[0]? = some e → ∃ n iw b, iws[i]? = some iw ∧ wins[i]? = some b ∧
    e = weighted iw (wrongs E (E.fit n b) b)) ∧
  ∀ j e, es[j + 1]? = some e → ∃ iw b, iws[i + (j + 1)]? = some iw ∧ wins[i + (j + 1)]? = some b ∧
    e = cutError E s iw b

theorem eval_old (E : Env F X S) (n : Nat) (b : List (X × Int)) (iw : List F) (a : Nat) (ha : a ≠ 0) (m : Member F S) :
    (evalMember E n b iw a m).1 = score E a (cutError E m.model iw b) m := by
  unfold evalMember cutError
  rw [if_neg (fun hh => ha hh.1)]
  by_cases hg : 1 / 2 < weighted iw (wrongs E m.model b)
  · rw [if_pos hg, min_eq_left hg.le]
  · rw [if_neg hg, min_eq_right (not_lt.mp hg)]

theorem eval_new (E : Env F X S) (n : Nat) (b : List (X × Int)) (iw : List F) (m : Member F S) :
    ∃ s, (evalMember E n b iw 0 m).1 = score E 0 (weighted iw (wrongs E m.model b)) { m with model := s } := by
  unfold evalMember
  by_cases hg : 1 / 2 < weighted iw (wrongs E m.model b)
  · simp only [true_and, if_pos hg]
    exact ⟨_, rfl⟩
  · simp only [true_and, if_neg hg]
    exact ⟨m.model, rfl⟩

theorem windows_scored (E : Env F X S) (hp : E.pruning = .none) (k : List Int) (wins : List (List (X × Int)))
    (st : State F S) (h : wins.foldlM (process E k) ⟨[], 0⟩ = Except.ok st) :
    ∃ iws : List (List F), iws.length = wins.length ∧ st.members.length = wins.length ∧
      (∀ (j : Nat) (iw : List F) (b : List (X × Int)), iws[j]? = some iw → wins[j]? = some b →
        iw = List.replicate b.length (1 / (b.length : F)) ∨ ∃ wr, wr.length = b.length ∧ iw = instWeights wr) ∧
      ∀ i m, st.members[i]? = some m → ∃ es, Errors E wins iws i m.model es ∧ Scored E m es := by
  induction wins using List.reverseRecOn generalizing st with
  | nil =>
    simp only [List.foldlM_nil, pure, Except.pure] at h
    cases h
    exact ⟨[], rfl, rfl, by simp, by simp⟩
  | append_singleton wins b ih =>
    rw [List.foldlM_append] at h
    cases h1 : wins.foldlM (process E k) ⟨[], 0⟩ with
    | error e => rw [h1] at h; cases h
    | ok st1 =>
      rw [h1] at h
      obtain ⟨iws, i1, i2, i3, i4⟩ := ih st1 h1
      simp only [bind, Except.bind, List.foldlM_cons, List.foldlM_nil, pure, Except.pure] at h
      cases h2 : process E k st1 b with
      | error e => rw [h2] at h; cases h
      | ok st2 =>
        rw [h2] at h
        cases h
        obtain ⟨iw, hw1, hw2, hm⟩ := process_ok E k st1 st b h2
        rw [prune, if_neg (by simp [hp]), if_neg (by simp [hp])] at hm
        refine ⟨iws ++ [iw], by simp [i1], by simp [hm, i2], ?_, ?_⟩
        · intro j iw' b' hj hb
          by_cases hlt : j < wins.length
          · rw [List.getElem?_append_left (by omega)] at hj
            rw [List.getElem?_append_left hlt] at hb
            exact i3 j iw' b' hj hb
          · rw [List.getElem?_append_right (by omega)] at hj hb
            have hj' : j = wins.length := by
              by_contra hne
              rw [List.getElem?_eq_none (by simp only [List.length_singleton]; omega)] at hb
              cases hb
            subst hj'
            rw [i1] at hj
            simp at hj hb
            subst hj hb
            by_cases he : st1.members = []
            · exact .inl (hw1 he)
            · obtain ⟨wr, hwr, rfl⟩ := hw2 he
              refine .inr ⟨wr, ?_, rfl⟩
              have : ∀ (l : List (X × Int)) (wr : List Bool), ensembleWrongs E k st1.members l = Except.ok wr → wr.length = l.length := by
                intro l
                induction l with
                | nil => intro wr hwr; simp [ensembleWrongs, pure, Except.pure] at hwr; simp [← hwr]
                | cons p l ihl =>
                  intro wr hwr
                  rw [ensembleWrongs, List.mapM_cons] at hwr
                  simp only [bind, Except.bind] at hwr
                  split at hwr
                  · cases hwr
                  · split at hwr
                    · cases hwr
                    · rename_i _ _ _ _ wr' hwr'
                      cases hwr
                      simp [ihl wr' hwr']
              exact this b wr hwr
        · intro i m hi
          rw [hm, List.getElem?_map, List.getElem?_mapIdx] at hi
          by_cases hlt : i < st1.members.length
          · rw [List.getElem?_append_left hlt] at hi
            obtain ⟨m0, hm0⟩ : ∃ m0, st1.members[i]? = some m0 := ⟨st1.members[i], List.getElem?_eq_getElem hlt⟩
            rw [hm0] at hi
            simp only [Option.map_some, Option.some.injEq] at hi
            obtain ⟨es, ⟨e1, e2, e3⟩, e4⟩ := i4 i m0 hm0
            rw [eval_old E _ b iw _ (by omega) m0] at hi
            have hmodel : m.model = m0.model := by rw [← hi]; rfl
            refine ⟨es ++ [cutError E m0.model iw b], ⟨?_, ?_, ?_⟩, ?_⟩
            · rw [List.length_append, List.length_append, e1]
              simp only [List.length_singleton]; omega
            · intro e he
              have hpos : 0 < es.length := by omega
              rw [List.getElem?_append_left hpos] at he
              obtain ⟨n, iw', b', f1, f2, f3⟩ := e2 e he
              refine ⟨n, iw', b', ?_, ?_, f3⟩
              · rw [List.getElem?_append_left (List.getElem?_eq_some_iff.mp f1).1]; exact f1
              · rw [List.getElem?_append_left (List.getElem?_eq_some_iff.mp f2).1]; exact f2
            · intro j e he
              rw [hmodel]
              by_cases hj : j + 1 < es.length
              · rw [List.getElem?_append_left hj] at he
                obtain ⟨iw', b', f1, f2, f3⟩ := e3 j e he
                refine ⟨iw', b', ?_, ?_, f3⟩
                · rw [List.getElem?_append_left (List.getElem?_eq_some_iff.mp f1).1]; exact f1
                · rw [List.getElem?_append_left (List.getElem?_eq_some_iff.mp f2).1]; exact f2
              · rw [List.getElem?_append_right (by omega)] at he
                have hj' : j + 1 = es.length := by
                  by_contra hne
                  rw [List.getElem?_eq_none (by simp only [List.length_singleton]; omega)] at he
                  cases he
                rw [hj'] at he
                simp at he
                refine ⟨iw, b, ?_, ?_, he.symm⟩
                · rw [List.getElem?_append_right (by omega)]
                  have : i + (j + 1) - iws.length = 0 := by omega
                  rw [this]; rfl
                · rw [List.getElem?_append_right (by omega)]
                  have : i + (j + 1) - wins.length = 0 := by omega
                  rw [this]; rfl
            · rw [← hi]
              have : st1.members.length - i = es.length := by omega
              rw [this]
              exact score_scored E m0 es _ e4
          · rw [List.getElem?_append_right (by omega)] at hi
            have hi' : i = st1.members.length := by
              by_contra hne
              rw [List.getElem?_eq_none (by simp only [List.length_singleton]; omega)] at hi
              cases hi
            subst hi'
            simp only [Nat.sub_self, List.getElem?_cons_zero, Option.map_some, Option.some.injEq] at hi
            obtain ⟨s, hs⟩ := eval_new E (st1.fits + 1) b iw (newMem E st1.fits b)
            rw [hs] at hi
            refine ⟨[weighted iw (wrongs E (newMem E st1.fits b).model b)], ⟨?_, ?_, ?_⟩, ?_⟩
            · rw [List.length_append, i2]; simp
            · intro e he
              simp at he
              refine ⟨st1.fits, iw, b, ?_, ?_, he.symm⟩
              · rw [i2, ← i1]; simp
              · rw [i2]; simp
            · intro j e he; simp at he
            · rw [← hi]
              exact score_scored E { newMem E st1.fits b with model := s } [] _ ⟨rfl, rfl, fun hh => absurd rfl hh⟩

/-- C150: without pruning, the voting weight of every member is a function of its errors on
the windows since its creation: the logarithm of the inverse of their weighted sum. -/
theorem C150_formula_partial (E : Env F X S) (hw : 0 < E.window) (hp : E.pruning = .none)
    (calls : List (Option (List Int) × List (X × Int))) (c : Cls F X S) (h : run E calls = Except.ok c) :
    let wins := windows E.window (calls.flatMap Prod.snd)
    ∃ iws : List (List F), iws.length = wins.length ∧ ∀ i m, c.st.members[i]? = some m →
      ∃ es, Errors E wins iws i m.model es ∧ m.vw = votingWeight E es := by
  intro wins
  obtain ⟨k, h1, _⟩ := run_windows E hw calls c h
  obtain ⟨iws, a, b, _, d⟩ := windows_scored E hp k _ _ h1
  refine ⟨iws, a, fun i m hm => ?_⟩
  obtain ⟨es, e1, e2⟩ := d i m hm
  refine ⟨es, e1, e2.2.2 ?_⟩
  intro hn
  have hl := e1.1
  rw [hn, List.length_nil] at hl
  have := (List.getElem?_eq_some_iff.mp hm).1
  omega

/-! ### Instance weights -/

section ordered
variable [IsStrictOrderedRing F]

theorem count_sum (wr : List Bool) (a b : F) :
    (wr.map fun x => if x then a else b).sum = (wr.count true : F) * a + ((wr.length : F) - wr.count true) * b := by
  induction wr with
  | nil => simp
  | cons x wr ih =>
    rw [List.map_cons, List.sum_cons, ih]
    cases x
    · simp; ring
    · simp; ring

/-- C150: the instance weights when the ensemble gets `q ≥ 1` of `m` samples wrong: they are
proportional to 1 on the wrong samples and to the error rate `q / m` on the others, and add
up to one. -/
theorem C150_instance_weights (wr : List Bool) (hq : 0 < wr.count true) :
    (instWeights wr : List F) = wr.map (fun b => if b then (wr.length : F) / (wr.count true * (2 * wr.length - wr.count true))
      else 1 / (2 * wr.length - wr.count true)) ∧ (instWeights wr : List F).sum = 1 := by
  have hle : wr.count true ≤ wr.length := List.count_le_length
  have hq' : (0 : F) < wr.count true := by exact_mod_cast hq
  have hle' : (wr.count true : F) ≤ wr.length := by exact_mod_cast hle
  have hm : (0 : F) < wr.length := lt_of_lt_of_le hq' hle'
  have hd : (0 : F) < 2 * wr.length - wr.count true := by linarith
  have hs := count_sum wr (1 / (wr.length : F)) ((wr.count true : F) / wr.length / wr.length)
  have hs' : (wr.count true : F) * (1 / wr.length) + ((wr.length : F) - wr.count true) * ((wr.count true : F) / wr.length / wr.length)
      = wr.count true * (2 * wr.length - wr.count true) / (wr.length * wr.length) := by
    field_simp; ring
  have hpos : (0 : F) < wr.count true * (2 * wr.length - wr.count true) / (wr.length * wr.length) := by positivity
  have heq : (instWeights wr : List F) = wr.map (fun b => if b then (wr.length : F) / (wr.count true * (2 * wr.length - wr.count true))
      else 1 / (2 * wr.length - wr.count true)) := by
    unfold instWeights
    simp only [hs, hs', if_pos hpos, List.map_map]
    apply List.map_congr_left
    intro b _
    cases b
    · simp only [Function.comp, Bool.false_eq_true, if_false]; field_simp
    · simp only [Function.comp, if_true]; field_simp
  refine ⟨heq, ?_⟩
  rw [heq, count_sum]
  field_simp
  rw [div_eq_one_iff_eq (by linarith)]
  ring

/-- When the ensemble gets every sample right, all the instance weights are zero. -/
theorem instWeights_right (wr : List Bool) (h : ∀ b ∈ wr, b = false) :
    (instWeights wr : List F) = List.replicate wr.length 0 := by
  have hc : wr.count true = 0 := by
    rw [List.count_eq_zero]
    intro ht
    exact absurd (h true ht) (by simp)
  have hz : ∀ x : F, (wr.map fun b => if b then x else (0 : F) / wr.length / wr.length) = List.replicate wr.length 0 := by
    intro x
    rw [List.eq_replicate_iff]
    refine ⟨by simp, ?_⟩
    intro y hy
    obtain ⟨b, hb, rfl⟩ := List.mem_map.mp hy
    simp [h b hb]
  unfold instWeights
  simp only [hc, Nat.cast_zero, hz]
  simp

/-- C150 (violated): when the vote of the ensemble is right on a whole window, every member,
however wrong it is on that window, is recorded with error zero. -/
theorem C150_perfect_violated (E : Env F X S) (k : List Int) (st st' : State F S) (b : List (X × Int))
    (hne : st.members ≠ []) (hp : E.pruning = .none) (wr : List Bool)
    (hall : ensembleWrongs E k st.members b = Except.ok wr) (hr : ∀ x ∈ wr, x = false)
    (h : process E k st b = Except.ok st') :
    ∀ m ∈ st'.members, m.bkts.getLast? = some (some 0) := by
  obtain ⟨iw, _, h2, hm⟩ := process_ok E k st st' b h
  obtain ⟨wr', e1, e2⟩ := h2 hne
  rw [hall] at e1
  cases e1
  rw [instWeights_right wr hr] at e2
  have hz : ∀ l : List Bool, weighted iw l = 0 := by
    intro l
    rw [e2, weighted]
    have : ∀ (n : Nat) (l : List Bool), (((List.replicate n (0 : F)).zip l).map fun p => if p.2 then p.1 else 0).sum = 0 := by
      intro n
      induction n with
      | zero => intro l; simp
      | succ n ih =>
        intro l
        cases l with
        | nil => simp
        | cons x l => simp [List.replicate_succ, ih l]
    exact this _ _
  intro m hmem
  rw [hm, prune, if_neg (by simp [hp]), if_neg (by simp [hp])] at hmem
  obtain ⟨r, hr', rfl⟩ := List.mem_map.mp hmem
  obtain ⟨i, hi, rfl⟩ := List.mem_mapIdx.mp hr'
  unfold evalMember
  have hn : ¬ (1 / 2 : F) < 0 := by
    have : (0 : F) < 1 / 2 := by positivity
    exact not_lt.mpr this.le
  simp only [hz]
  rw [if_neg (fun hh => hn hh.2), if_neg hn]
  simp [score, beta]

/-! ### Voting weights -/

/-- The weights given add up to more and more: without bound. -/
theorem wts_sum_unbounded [Archimedean F] (sig : Nat → F) (w0 : F) (h0 : 0 < w0) (hs : ∀ a, w0 ≤ sig a) (B : F) :
    ∃ N, ∀ n, N ≤ n → B ≤ (wts sig n).sum := by
  have hnn : ∀ n, 0 ≤ (wts sig n).sum := by
    intro n
    induction n with
    | zero => simp [wts]
    | succ n ih =>
      have := hs n
      rw [wts, List.sum_append, List.sum_singleton]
      have : 0 < sig n := lt_of_lt_of_le h0 (hs n)
      positivity
  have hstep : ∀ n, (wts sig (n + 1)).sum = (wts sig n).sum + sig n / ((wts sig n).sum + sig n) := by
    intro n; rw [wts, List.sum_append, List.sum_singleton]
  have hmono : ∀ n m, n ≤ m → (wts sig n).sum ≤ (wts sig m).sum := by
    intro n m hnm
    induction m, hnm using Nat.le_induction with
    | base => exact le_refl _
    | succ m _ ih =>
      rw [hstep]
      have h1 := hnn m
      have : 0 < sig m := lt_of_lt_of_le h0 (hs m)
      have : 0 ≤ sig m / ((wts sig m).sum + sig m) := by positivity
      linarith
  by_contra hcon
  push Not at hcon
  have hlt : ∀ n, (wts sig n).sum < B := by
    intro n
    obtain ⟨m, hm, hB⟩ := hcon n
    exact lt_of_le_of_lt (hmono n m hm) hB
  have hB : 0 < B := lt_of_le_of_lt (hnn 0) (hlt 0)
  have hinc : ∀ n : Nat, (n : F) * (w0 / (B + w0)) ≤ (wts sig n).sum := by
    intro n
    induction n with
    | zero => simp [wts]
    | succ n ih =>
      rw [hstep, Nat.cast_succ, add_mul, one_mul]
      have h1 := hnn n
      have h2 := hlt n
      have h3 := hs n
      have h4 : 0 < sig n := lt_of_lt_of_le h0 h3
      have : w0 / (B + w0) ≤ sig n / ((wts sig n).sum + sig n) := by
        rw [div_le_div_iff₀ (by positivity) (by positivity)]
        nlinarith
      linarith
  obtain ⟨n, hn⟩ := Archimedean.arch B (show 0 < w0 / (B + w0) by positivity)
  rw [nsmul_eq_mul] at hn
  exact absurd (lt_of_le_of_lt (le_trans hn (hinc n)) (hlt n)) (lt_irrefl _)

theorem wts_nonneg (sig : Nat → F) (hs : ∀ a, 0 < sig a) (n : Nat) : ∀ w ∈ wts sig n, 0 ≤ w := by
  induction n with
  | zero => simp [wts]
  | succ n ih =>
    intro w hw
    rw [wts, List.mem_append, List.mem_singleton] at hw
    rcases hw with hw | rfl
    · exact ih w hw
    · have := List.sum_nonneg ih
      have := hs n
      positivity

theorem wsum_ge (sig : Nat → F) (hs : ∀ a, 0 < sig a) (es : List F) (e : F) (he0 : 0 < e) (he1 : e < 1)
    (hes : ∀ x ∈ es, e ≤ x ∧ x < 1) : e / (1 - e) * (wts sig es.length).sum ≤ wsum sig es := by
  rw [wsum]
  have hw := wts_nonneg sig hs es.length
  have hl := length_wts sig es.length
  generalize wts sig es.length = ws at hw hl
  induction es generalizing ws with
  | nil =>
    cases ws with
    | nil => simp
    | cons w ws => simp at hl
  | cons x es ih =>
    cases ws with
    | nil => simp at hl
    | cons w ws =>
      simp only [List.zipWith_cons_cons, List.sum_cons]
      have h1 := ih (fun y hy => hes y (by simp [hy])) ws (fun y hy => hw y (by simp [hy])) (by simpa using hl)
      obtain ⟨h2, h3⟩ := hes x (by simp)
      have h4 : e / (1 - e) ≤ x / (1 - x) := by
        rw [div_le_div_iff₀ (by linarith) (by linarith)]
        nlinarith
      have h5 := mul_le_mul_of_nonneg_right h4 (hw w (by simp))
      rw [mul_add]
      linarith

/-- C150 (violated): however small the error `e > 0`, a member whose recorded error is at
least `e` on every window falls silent after some number of windows, for good: its voting
weight is not positive although its errors may all be far below one half.  (The sigmoid is
bounded below on ages, as it increases.) -/
theorem C150_silenced_violated [Archimedean F] (E : Env F X S) (hw : 0 < E.window) (hp : E.pruning = .none)
    (w0 : F) (h0 : 0 < w0) (hs : ∀ a, w0 ≤ E.sig a) (heps : 0 ≤ E.eps) (hlg : ∀ x, 0 < x → x ≤ 1 → E.lg x ≤ 0)
    (e : F) (he0 : 0 < e) (he1 : e < 1) :
    ∃ N, ∀ (calls : List (Option (List Int) × List (X × Int))) (c : Cls F X S), run E calls = Except.ok c →
      ∀ i m, c.st.members[i]? = some m → i + N ≤ (calls.flatMap Prod.snd).length / E.window →
        (∀ v ∈ m.bkts, ∃ x, e ≤ x ∧ x < 1 ∧ v = some (x / (1 - x))) → ∀ w, m.vw = some w → w ≤ 0 := by
  obtain ⟨N, hN⟩ := wts_sum_unbounded E.sig w0 h0 hs ((1 - e) / e)
  refine ⟨N, ?_⟩
  intro calls c h i m hm hlen hb w hvw
  obtain ⟨k, h1, _⟩ := run_windows E hw calls c h
  obtain ⟨iws, _, _, _, d⟩ := windows_scored E hp k _ _ h1
  obtain ⟨es, ⟨e1, _, _⟩, e2, _, e3⟩ := d i m hm
  rw [length_windows] at e1
  have hsp : ∀ a, 0 < E.sig a := fun a => lt_of_lt_of_le h0 (hs a)
  have hpos : 0 < 1 - e := by linarith
  have hes : ∀ x ∈ es, e ≤ x ∧ x < 1 := by
    intro x hx
    obtain ⟨y, y1, y2, y3⟩ := hb (beta x) (by rw [e2]; exact List.mem_map_of_mem hx)
    unfold beta at y3
    by_cases hx1 : x = 1
    · rw [if_pos hx1] at y3; cases y3
    · rw [if_neg hx1, Option.some.injEq, div_eq_div_iff (sub_ne_zero.mpr (Ne.symm hx1)) (by linarith)] at y3
      have : x = y := by linarith
      rw [this]; exact ⟨y1, y2⟩
  have hge := wsum_ge E.sig hsp es e he0 he1 hes
  have hbig := hN es.length (by omega)
  have hone : 1 ≤ wsum E.sig es := by
    refine le_trans ?_ hge
    have := mul_le_mul_of_nonneg_left hbig (show 0 ≤ e / (1 - e) by positivity)
    refine le_trans (le_of_eq ?_) this
    field_simp
  by_cases hn : es = []
  · have hvw0 : m.wkts = [] := by rename_i hk; rw [hk, hn]; rfl
    rw [hn] at hone
    have : wsum E.sig ([] : List F) = 0 := by simp [wsum]
    linarith
  · rw [e3 hn, votingWeight] at hvw
    by_cases h1e : 1 ∈ es
    · rw [if_pos h1e] at hvw; cases hvw
    · rw [if_neg h1e, Option.some.injEq] at hvw
      rw [← hvw]
      apply hlg
      · have : 0 < wsum E.sig es + E.eps := by linarith
        positivity
      · rw [div_le_one (by linarith)]; linarith

/-- C150 (what holds): a member votes right after the window it was trained on exactly when
its normalised error on that window, plus `1e-50`, is below one; so when its error is below
one half (up to `1e-50`). -/
theorem C150_newest_partial (E : Env F X S) (h0 : 0 < E.sig 0) (heps : 0 < E.eps) (hlg : ∀ x, 0 < E.lg x ↔ 1 < x)
    (e : F) (he : 0 ≤ e) (he1 : e < 1) :
    ∃ w, votingWeight E [e] = some w ∧ (0 < w ↔ e / (1 - e) + E.eps < 1) := by
  have hpos : 0 < 1 - e := by linarith
  refine ⟨E.lg (1 / (e / (1 - e) + E.eps)), ?_, ?_⟩
  · rw [votingWeight, if_neg (by simp; linarith)]
    congr 4
    simp [wsum, wts, div_self h0.ne']
  · rw [hlg]
    have : 0 < e / (1 - e) + E.eps := by positivity
    rw [one_lt_div this]

end ordered

/-- Windows of four samples, all of label 0; the learner trained on window `s` errs on
the samples `errs[s]`. -/
def toyW (errs : List (List Nat)) : Env ℚ Nat Nat :=
  { fit := fun n _ => n / 2, pred := fun s x => if x ∈ errs.getD s [] then 1 else 0,
    proba := fun s x => if x ∈ errs.getD s [] then [0, 1] else [1, 0], known := fun _ => some [0, 1],
    lg := fun x => x - 1, sig := fun _ => 1, eps := 1 / 1000, window := 4, cap := 1, pruning := .none }

/-- After four windows the third member has errors 7/15 and 2/7 on its two windows
(normalised 7/8 and 2/5), both below one half, and a negative voting weight. -/
example : ((run (toyW [[3, 32], [11, 13, 20, 21, 23, 31, 32, 33], [0, 10, 20, 22, 30, 33], [11, 22, 33]])
      [(some [0, 1], (List.range 16).map fun n => (n / 4 * 10 + n % 4, 0))]).toOption.map
      fun c => ((c.st.members.map fun m => (m.bkts, m.wkts, m.vw))[2]? : Option (List (Option ℚ) × List ℚ × Option ℚ))) =
    some (some ([some (7 / 8), some (2 / 5)], [1, 1 / 2], some (-19 / 269))) := by
  decide +kernel

/-- The first member is right on the second window; the second member, wrong on a quarter of
it, is recorded with error zero and gets the weight of a perfect learner. -/
example : ((run (toyW [[], [11]]) [(some [0, 1], (List.range 8).map fun n => (n / 4 * 10 + n % 4, 0))]).toOption.map
      fun c => ((c.st.members.map fun m => (m.bkts, m.vw)) : List (List (Option ℚ) × Option ℚ))) =
    some [([some 0, some 0], some 999), ([some 0], some 999)] := by
  decide +kernel

example : (instWeights [false, true, false, false] : List ℚ) = [1 / 7, 4 / 7, 1 / 7, 1 / 7] := by
  decide +kernel

end Verif.Meta.NSE
