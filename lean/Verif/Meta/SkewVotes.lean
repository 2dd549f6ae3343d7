import Mathlib.Algebra.BigOperators.Ring.List
import Mathlib.Algebra.Order.BigOperators.Group.List
import Verif.Meta.SkewRus

/-!
The votes of the five ensembles for skewed classes (`online_adac2.py`, `online_csb2.py`,
`online_rus_boost.py`, `online_under_over_bagging.py`, `online_smote_bagging.py`); C248.

The code of `predict_proba` is the same in all five up to the weight of a member: `log(wacc / werr)`
in AdaC2, `log((1 - epsilon) / epsilon)` in CSB2 and RUSBoost, none in the bagging ensembles.  `log`
is an arbitrary function here.  Warnings are turned into errors by the code: a base learner that
warns is one that raises (`PyErr.other`).  The final `np.asarray` of rows of different lengths is not
modelled: the result is the list of rows.
-/

namespace Verif.Meta.Skew

open Verif.Lazy (argmax argmax_spec)

variable {σ δ X τ γ : Type}

/-- What evaluating a member's weight does: yields a number, raises `RuntimeWarning` (division by
zero or logarithm of zero), or raises `IndexError`. -/
inductive Weight where
  | val (w : ℚ)
  | warns
  | missing
deriving DecidableEq

/-- Weight of a member of CSB2 and RUSBoost (online_csb2.py 358-359, online_rus_boost.py 386-387). -/
def epsWeight (log : ℚ → ℚ) (eps : ℚ) : Weight :=
  if eps = 0 ∨ eps = 1 then .warns else .val (log ((1 - eps) / eps))

/-- Weight of a member of AdaC2 (online_adac2.py 365-366); `none` is a missing entry of `wacc`. -/
def adaWeight (log : ℚ → ℚ) (acc : Option (ℚ × ℚ)) : Weight :=
  match acc with
  | none => .missing
  | some (a, e) => if e = 0 ∨ a = 0 then .warns else .val (log (a / e))

/-- Lines 363-371 of online_adac2.py for one `k`: `p` is `partial_proba[n][k]`. -/
def addCell (w : Weight) (row : List ℚ) (q : ℚ × Nat) : List ℚ :=
  if q.2 < row.length then
    match w with
    | .val v => row.modify q.2 (· + v * q.1)
    | .missing => row ++ [q.1]
    | .warns => row
  else row ++ [q.1]

/-- Lines 362-371: one row of one member. -/
def addRow (w : Weight) (row p : List ℚ) : List ℚ := p.zipIdx.foldl (addCell w) row

/-- Lines 352-371: the members in turn. -/
def votesLoop (classes : Option (List Int)) :
    List (Weight × Except PyErr (List (List ℚ))) → List (List ℚ) → Except PyErr (List (List ℚ))
  | [], acc => .ok acc
  | (w, a) :: ms, acc =>
    match a with
    | .error e => .error e
    | .ok p =>
      match p with
      | [] => .error .indexError
      | p0 :: _ =>
        match classes with
        | none => .error .typeError
        | some c =>
          match c.max? with
          | none => .error .valueError
          | some m =>
            if (p0.length : Int) > m + 1 then .error .valueError
            else
              let acc := if acc.length < 1 then p.map (fun row => row.map fun _ => (0 : ℚ)) else acc
              votesLoop classes ms (List.zipWith (addRow w) acc p)

/-- Lines 378-386. -/
def normalise (row : List ℚ) : List ℚ := if row.sum > 0 then row.map (· / row.sum) else row

/-- `predict_proba` of a trained ensemble for `r` rows, lines 341-387; the members are given by their
weight and what their own `predict_proba` does. -/
def predictProba (classes : Option (List Int)) (r : Nat) (ms : List (Weight × Except PyErr (List (List ℚ)))) :
    Except PyErr (List (List ℚ)) :=
  match votesLoop classes ms [] with
  | .error .valueError => .ok (List.replicate r [0])
  | .error .typeError => .ok (List.replicate r [0])
  | .error e => .error e
  | .ok acc => .ok (acc.map normalise)

/-- `predict`, lines 292-315. -/
def predictRows (classes : Option (List Int)) (r : Nat) (ms : List (Weight × Except PyErr (List (List ℚ)))) :
    Except PyErr (List Nat) :=
  (predictProba classes r ms).map fun rows => rows.map argmax

/-! ### Specification -/

/-- The number a member's vote is multiplied by, when it counts. -/
def Weight.num : Weight → ℚ
  | .val w => w
  | _ => 0

/-- The vote for class `k` in row `n`: sum over the members of weight times probability, members
whose weight is not a number left out. -/
def vote (ms : List (Weight × List (List ℚ))) (n k : Nat) : ℚ :=
  (ms.map fun m => m.1.num * ((m.2[n]?.getD [])[k]?.getD 0)).sum

/-- The members answer with `r` rows of `K` columns. -/
def Shaped (r K : Nat) (p : List (List ℚ)) : Prop := p.length = r ∧ ∀ row ∈ p, row.length = K

/-! ### Lemmas -/

theorem addRow_spec (w : Weight) (hw : w ≠ .missing) (row p : List ℚ) (h : p.length = row.length) :
    (addRow w row p).length = row.length ∧
    ∀ k, k < row.length → (addRow w row p)[k]? = some (row[k]?.getD 0 + w.num * p[k]?.getD 0) := by
  have gen : ∀ (p : List ℚ) (s : Nat) (row : List ℚ), s + p.length = row.length →
      ((p.zipIdx s).foldl (addCell w) row).length = row.length ∧
      ∀ k, k < row.length → ((p.zipIdx s).foldl (addCell w) row)[k]? =
        some (row[k]?.getD 0 + if s ≤ k then w.num * p[k - s]?.getD 0 else 0) := by
    intro p
    induction p with
    | nil =>
      intro s row hs
      refine ⟨rfl, fun k hk => ?_⟩
      simp [List.getElem?_eq_getElem hk]
    | cons a p ih =>
      intro s row hs
      simp only [List.length_cons] at hs
      have hc : addCell w row (a, s) = row.modify s (· + w.num * a) := by
        unfold addCell
        rw [if_pos (by simp only; omega)]
        cases w with
        | val v => rfl
        | missing => exact absurd rfl hw
        | warns =>
          apply List.ext_getElem?
          intro i
          simp [Weight.num, List.getElem?_modify]
      rw [List.zipIdx_cons, List.foldl_cons, hc]
      obtain ⟨h1, h2⟩ := ih (s + 1) (row.modify s (· + w.num * a)) (by rw [List.length_modify]; omega)
      rw [List.length_modify] at h1 h2
      refine ⟨h1, fun k hk => ?_⟩
      rw [h2 k hk, List.getElem?_modify, List.getElem?_eq_getElem hk]
      by_cases e : s = k
      · subst e
        simp
      · by_cases l : s ≤ k
        · rw [if_pos l, if_pos (by omega), show k - s = (k - (s + 1)) + 1 by omega, List.getElem?_cons_succ]
          simp [e]
        · rw [if_neg l, if_neg (by omega)]
          simp [e]
  obtain ⟨h1, h2⟩ := gen p 0 row (by omega)
  refine ⟨h1, fun k hk => ?_⟩
  rw [addRow, h2 k hk]
  simp

theorem zip_shaped (w : Weight) (hw : w ≠ .missing) (r K : Nat) (acc p : List (List ℚ)) (ha : Shaped r K acc) (hp : Shaped r K p) :
    Shaped r K (List.zipWith (addRow w) acc p) ∧
    ∀ n, n < r → ∀ k, k < K → ((List.zipWith (addRow w) acc p)[n]?.getD [])[k]? =
      some ((acc[n]?.getD [])[k]?.getD 0 + w.num * ((p[n]?.getD [])[k]?.getD 0)) := by
  obtain ⟨a1, a2⟩ := ha
  obtain ⟨p1, p2⟩ := hp
  have key : ∀ n (h1 : n < acc.length) (h2 : n < p.length), (p[n]).length = (acc[n]).length := fun n h1 h2 => by
    rw [p2 _ (List.getElem_mem h2), a2 _ (List.getElem_mem h1)]
  refine ⟨⟨by rw [List.length_zipWith]; omega, fun row hrow => ?_⟩, fun n hn k hk => ?_⟩
  · obtain ⟨n, hn, rfl⟩ := List.getElem_of_mem hrow
    rw [List.length_zipWith] at hn
    rw [List.getElem_zipWith, (addRow_spec w hw _ _ (key n (by omega) (by omega))).1]
    exact a2 _ (List.getElem_mem _)
  · have h1 : n < acc.length := by omega
    have h2 : n < p.length := by omega
    rw [List.getElem?_zipWith, List.getElem?_eq_getElem h1, List.getElem?_eq_getElem h2]
    simp only [Option.getD_some]
    exact (addRow_spec w hw _ _ (key n h1 h2)).2 k (by rw [a2 _ (List.getElem_mem h1)]; exact hk)

theorem votesLoop_spec (c : List Int) (m : Int) (hm : c.max? = some m) (r K : Nat) (hr : 0 < r) (hK : (K : Int) ≤ m + 1)
    (ms : List (Weight × List (List ℚ))) (hw : ∀ a ∈ ms, a.1 ≠ .missing) (hs : ∀ a ∈ ms, Shaped r K a.2) (acc : List (List ℚ))
    (ha : Shaped r K acc) :
    ∃ out, votesLoop (some c) (ms.map fun a => (a.1, .ok a.2)) acc = .ok out ∧ Shaped r K out ∧
      ∀ n, n < r → ∀ k, k < K → (out[n]?.getD [])[k]? = some ((acc[n]?.getD [])[k]?.getD 0 + vote ms n k) := by
  induction ms generalizing acc with
  | nil =>
    refine ⟨acc, rfl, ha, fun n hn k hk => ?_⟩
    have h1 : n < acc.length := by rw [ha.1]; exact hn
    have h2 : k < (acc[n]).length := by rw [ha.2 _ (List.getElem_mem h1)]; exact hk
    simp [vote, List.getElem?_eq_getElem h1, List.getElem?_eq_getElem h2]
  | cons a ms ih =>
    obtain ⟨w, p⟩ := a
    have hsp := hs (w, p) (by simp)
    simp only at hsp
    obtain ⟨z1, z2⟩ := zip_shaped w (hw (w, p) (by simp)) r K acc p ha hsp
    obtain ⟨out, o1, o2, o3⟩ := ih (fun a h => hw a (by simp [h])) (fun a h => hs a (by simp [h])) _ z1
    refine ⟨out, ?_, o2, fun n hn k hk => ?_⟩
    · rw [List.map_cons]
      cases p with
      | nil => have := hsp.1; simp at this; omega
      | cons p0 ps =>
        have hl : p0.length = K := hsp.2 _ (by simp)
        have hal : ¬ acc.length < 1 := by rw [ha.1]; omega
        simp only [votesLoop, hm]
        rw [if_neg (by rw [hl]; omega)]
        simp only [if_neg hal]
        exact o1
    · rw [o3 n hn k hk, z2 n hn k hk]
      simp only [Option.getD_some, vote, List.map_cons, List.sum_cons]
      congr 1; ring

/-- The first member only fixes the shape of the running rows. -/
theorem votesLoop_first (c : Option (List Int)) (w : Weight) (p : List (List ℚ)) (r K : Nat) (hs : Shaped r K p)
    (ms : List (Weight × Except PyErr (List (List ℚ)))) (hr : 0 < r) :
    votesLoop c ((w, .ok p) :: ms) [] = votesLoop c ((w, .ok p) :: ms) (List.replicate r (List.replicate K 0)) := by
  have hz : p.map (fun row => row.map fun _ => (0 : ℚ)) = List.replicate r (List.replicate K 0) := by
    apply List.ext_getElem
    · simp [hs.1]
    · intro i h1 h2
      simp only [List.length_map] at h1
      simp [hs.2 _ (List.getElem_mem h1)]
  cases p with
  | nil => rfl
  | cons p0 ps =>
    cases c with
    | none => rfl
    | some c =>
      cases hm : c.max? with
      | none => simp only [votesLoop, hm]
      | some m =>
        simp only [votesLoop, hm]
        by_cases h : (p0.length : Int) > m + 1
        · rw [if_pos h, if_pos h]
        · rw [if_neg h, if_neg h]
          rw [if_pos (by simp), if_neg (by simp; omega), hz]

theorem map_get (f : List ℚ → List ℚ) (l : List (List ℚ)) (n : Nat) (h : n < l.length) :
    (l.map f)[n]?.getD [] = f (l[n]?.getD []) := by
  simp [List.getElem?_eq_getElem h]

/-- C248 (what holds): when the members know the same `K` of the ensemble's classes, each row of
`predict_proba` holds, for every class, the sum over the members of weight times probability, divided by
the total of the row if that is positive.  Members whose weight is not a number are left out. -/
theorem C248_votes_partial (c : List Int) (m : Int) (hm : c.max? = some m) (r K : Nat) (hr : 0 < r) (hK : (K : Int) ≤ m + 1)
    (a : Weight × List (List ℚ)) (ms : List (Weight × List (List ℚ))) (hw : ∀ b ∈ a :: ms, b.1 ≠ .missing)
    (hs : ∀ b ∈ a :: ms, Shaped r K b.2) :
    ∃ out, predictProba (some c) r ((a :: ms).map fun b => (b.1, .ok b.2)) = .ok out ∧ Shaped r K out ∧
      ∀ n, n < r → ∀ k, k < K → (out[n]?.getD [])[k]? =
        some (let total := ((List.range K).map fun j => vote (a :: ms) n j).sum
          if 0 < total then vote (a :: ms) n k / total else vote (a :: ms) n k) := by
  obtain ⟨w, p⟩ := a
  obtain ⟨out, o1, o2, o3⟩ := votesLoop_spec c m hm r K hr hK ((w, p) :: ms) hw hs (List.replicate r (List.replicate K 0))
    ⟨by simp, fun row hrow => by rw [List.eq_of_mem_replicate hrow]; simp⟩
  have o4 : ∀ n, n < r → out[n]?.getD [] = (List.range K).map fun k => vote ((w, p) :: ms) n k := by
    intro n hn
    have h1 : n < out.length := by rw [o2.1]; exact hn
    apply List.ext_getElem?
    intro k
    by_cases hk : k < K
    · rw [o3 n hn k hk]
      simp [hn, hk]
    · have : (out[n]?.getD []).length = K := by
        rw [List.getElem?_eq_getElem h1]; exact o2.2 _ (List.getElem_mem h1)
      rw [List.getElem?_eq_none (by omega), List.getElem?_eq_none (by simp; omega)]
  have hl : ∀ row : List ℚ, (normalise row).length = row.length := by
    intro row; unfold normalise
    by_cases h : row.sum > 0
    · rw [if_pos h, List.length_map]
    · rw [if_neg h]
  refine ⟨out.map normalise, ?_, ⟨by rw [List.length_map]; exact o2.1, fun row hrow => ?_⟩, fun n hn k hk => ?_⟩
  · rw [predictProba, List.map_cons, votesLoop_first _ w p r K (hs (w, p) (by simp)) _ hr]
    rw [List.map_cons] at o1
    rw [o1]
  · obtain ⟨q, hq, rfl⟩ := List.mem_map.mp hrow
    rw [hl]; exact o2.2 _ hq
  · rw [map_get _ _ _ (by rw [o2.1]; exact hn), o4 n hn]
    simp only [normalise]
    by_cases h : 0 < ((List.range K).map fun j => vote ((w, p) :: ms) n j).sum
    · rw [if_pos h, if_pos h]; simp [hk]
    · rw [if_neg h, if_neg h]; simp [hk]

/-- The hypotheses are met: two members with weights 2 and 1. -/
example : (predictProba (some [0, 1]) 1 [(.val 2, .ok [[1, 0]]), (.val 1, .ok [[0, 1]])]).toOption = some [[2/3, 1/3]] := by
  decide +kernel

example : ([0, 1] : List Int).max? = some 1 ∧ (∀ b ∈ [(Weight.val 2, [[(1 : ℚ), 0]]), (.val 1, [[0, 1]])], b.1 ≠ .missing) ∧
    ∀ b ∈ [(Weight.val 2, [[(1 : ℚ), 0]]), (.val 1, [[0, 1]])], Shaped 1 2 b.2 := by
  refine ⟨by decide, by decide, ?_⟩
  intro b hb
  simp only [List.mem_cons, List.not_mem_nil, or_false] at hb
  rcases hb with rfl | rfl <;> exact ⟨rfl, by simp⟩

theorem sum_range_getD (K : Nat) (l : List ℚ) (h : l.length = K) : ((List.range K).map fun j => l[j]?.getD 0).sum = l.sum := by
  congr 1
  apply List.ext_getElem?
  intro i
  by_cases hi : i < K
  · simp [hi, h]
  · rw [List.getElem?_eq_none (by simp; omega), List.getElem?_eq_none (by omega)]

theorem sum_vote (ms : List (Weight × List (List ℚ))) (n K : Nat) (h1 : ∀ b ∈ ms, b.1 = .val 1)
    (h2 : ∀ b ∈ ms, (b.2[n]?.getD []).length = K ∧ (b.2[n]?.getD []).sum = 1) :
    ((List.range K).map fun j => vote ms n j).sum = ms.length := by
  induction ms with
  | nil => simp [vote]
  | cons b ms ih =>
    have hv : ∀ j, vote (b :: ms) n j = (b.2[n]?.getD [])[j]?.getD 0 + vote ms n j := by
      intro j
      simp [vote, h1 b (by simp), Weight.num]
    simp only [hv, List.sum_map_add]
    rw [ih (fun b hb => h1 b (by simp [hb])) fun b hb => h2 b (by simp [hb]), sum_range_getD K _ (h2 b (by simp)).1,
      (h2 b (by simp)).2]
    push_cast [List.length_cons]; ring

/-- C248 (what holds): the bagging ensembles, where every weight is 1: if every member's row sums to 1,
`predict_proba` is the average of the members' probabilities. -/
theorem C248_bagging_partial (c : List Int) (m : Int) (hm : c.max? = some m) (r K : Nat) (hr : 0 < r) (hK : (K : Int) ≤ m + 1)
    (a : List (List ℚ)) (ms : List (List (List ℚ))) (hs : ∀ b ∈ a :: ms, Shaped r K b ∧ ∀ row ∈ b, row.sum = 1) :
    ∃ out, predictProba (some c) r ((a :: ms).map fun b => (.val 1, .ok b)) = .ok out ∧ Shaped r K out ∧
      ∀ n, n < r → ∀ k, k < K → (out[n]?.getD [])[k]? =
        some (((a :: ms).map fun b => (b[n]?.getD [])[k]?.getD 0).sum / (a :: ms).length) := by
  obtain ⟨out, o1, o2, o3⟩ := C248_votes_partial c m hm r K hr hK (.val 1, a) (ms.map fun b => (.val 1, b))
    (by intro b hb; simp only [List.mem_cons, List.mem_map] at hb; rcases hb with rfl | ⟨_, _, rfl⟩ <;> simp)
    (by
      intro b hb; simp only [List.mem_cons, List.mem_map] at hb
      rcases hb with rfl | ⟨q, hq, rfl⟩
      · exact (hs _ (by simp)).1
      · exact (hs q (by simp [hq])).1)
  refine ⟨out, ?_, o2, fun n hn k hk => ?_⟩
  · rw [← o1]; simp [List.map_map, Function.comp_def]
  · have hall : ((Weight.val 1, a) :: ms.map fun b => (Weight.val 1, b)) = (a :: ms).map fun b => (Weight.val 1, b) := rfl
    have ht : ((List.range K).map fun j => vote ((Weight.val 1, a) :: ms.map fun b => (Weight.val 1, b)) n j).sum =
        ((a :: ms).length : ℚ) := by
      rw [sum_vote _ n K]
      · simp
      · rw [hall]; intro b hb; obtain ⟨q, _, rfl⟩ := List.mem_map.mp hb; rfl
      · rw [hall]; intro b hb
        obtain ⟨q, hq, rfl⟩ := List.mem_map.mp hb
        obtain ⟨⟨s1, s2⟩, s3⟩ := hs q hq
        have h1 : n < q.length := by rw [s1]; exact hn
        simp only [List.getElem?_eq_getElem h1, Option.getD_some]
        exact ⟨s2 _ (List.getElem_mem h1), s3 _ (List.getElem_mem h1)⟩
    rw [o3 n hn k hk]
    simp only [ht]
    rw [if_pos (by simp only [List.length_cons]; positivity)]
    simp [vote, Weight.num, List.map_map, Function.comp_def]

/-- The hypotheses are met by two members. -/
example : (predictProba (some [0, 1]) 1 [(.val 1, .ok [[1, 0]]), (.val 1, .ok [[1/2, 1/2]])]).toOption = some [[3/4, 1/4]] := by
  decide +kernel

/-! ### The weights -/

/-- C248: with an increasing `log` that is 0 at 1, the smaller the error of a member of CSB2 or
RUSBoost, the larger its weight, which is positive exactly below one half; only the errors 0 and 1
give no weight. -/
theorem C248_eps_weight_partial (log : ℚ → ℚ) (hlog : ∀ x y, 0 < x → x < y → log x < log y) (h1 : log 1 = 0) :
    (∀ e, epsWeight log e = .warns ↔ e = 0 ∨ e = 1) ∧
    (∀ e, 0 < e → e < 1 → ∃ u, epsWeight log e = .val u ∧ (0 < u ↔ e < 1 / 2) ∧ (u < 0 ↔ 1 / 2 < e) ∧
      ∀ e', e < e' → e' < 1 → ∃ v, epsWeight log e' = .val v ∧ v < u) := by
  constructor
  · intro e
    unfold epsWeight
    by_cases h : e = 0 ∨ e = 1
    · simp [h]
    · simp [h]
  · have val : ∀ e, 0 < e → e < 1 → epsWeight log e = .val (log ((1 - e) / e)) := by
      intro e a b
      rw [epsWeight, if_neg]
      rintro (rfl | rfl)
      · exact absurd a (lt_irrefl _)
      · exact absurd b (lt_irrefl _)
    intro e a b
    refine ⟨_, val e a b, ?_, ?_, fun e' c d => ⟨_, val e' (by linarith) d, ?_⟩⟩
    · rw [← h1]
      constructor
      · intro h
        by_contra hn
        rcases eq_or_lt_of_le (not_lt.mp hn) with q | q
        · rw [← q] at h; norm_num at h
        · have : (1 - e) / e < 1 := by rw [div_lt_one a]; linarith
          exact absurd (hlog _ _ (div_pos (by linarith) a) this) (by linarith)
      · intro h
        exact hlog _ _ one_pos (by rw [one_lt_div a]; linarith)
    · rw [← h1]
      constructor
      · intro h
        by_contra hn
        rcases eq_or_lt_of_le (not_lt.mp hn) with q | q
        · rw [q] at h; norm_num at h
        · have : 1 < (1 - e) / e := by rw [one_lt_div a]; linarith
          exact absurd (hlog _ _ one_pos this) (by linarith)
      · intro h
        exact hlog _ _ (div_pos (by linarith) a) (by rw [div_lt_one a]; linarith)
    · refine hlog _ _ (div_pos (by linarith) (by linarith)) ?_
      rw [div_lt_div_iff₀ (by linarith) a]
      nlinarith

/-- C248: a member of AdaC2 has a positive weight exactly when it was right more often (by weight) than
wrong; more right or less wrong means more weight; no weight if it was never right or never wrong. -/
theorem C248_ada_weight_partial (log : ℚ → ℚ) (hlog : ∀ x y, 0 < x → x < y → log x < log y) (h1 : log 1 = 0) :
    (∀ a e, adaWeight log (some (a, e)) = .warns ↔ a = 0 ∨ e = 0) ∧
    (∀ a e, 0 < a → 0 < e → ∃ u, adaWeight log (some (a, e)) = .val u ∧ (0 < u ↔ e < a) ∧
      (∀ a', a < a' → ∃ v, adaWeight log (some (a', e)) = .val v ∧ u < v) ∧
      (∀ e', e < e' → ∃ v, adaWeight log (some (a, e')) = .val v ∧ v < u)) := by
  have val : ∀ a e, 0 < a → 0 < e → adaWeight log (some (a, e)) = .val (log (a / e)) := by
    intro a e h1 h2
    simp only [adaWeight]
    rw [if_neg]
    rintro (rfl | rfl)
    · exact absurd h2 (lt_irrefl _)
    · exact absurd h1 (lt_irrefl _)
  constructor
  · intro a e
    simp only [adaWeight]
    by_cases h : e = 0 ∨ a = 0
    · rw [if_pos h]; simp [h.symm]
    · rw [if_neg h]
      simp only [reduceCtorEq, false_iff]
      exact fun q => h q.symm
  · intro a e ha he
    refine ⟨_, val a e ha he, ?_, fun a' h => ⟨_, val a' e (by linarith) he, ?_⟩, fun e' h => ⟨_, val a e' ha (by linarith), ?_⟩⟩
    · rw [← h1]
      constructor
      · intro h
        by_contra hn
        rcases eq_or_lt_of_le (not_lt.mp hn) with q | q
        · subst q; rw [div_self ha.ne'] at h; exact absurd h (lt_irrefl _)
        · have : a / e < 1 := by rw [div_lt_one he]; exact q
          exact absurd (hlog _ _ (div_pos ha he) this) (by linarith)
      · intro h
        exact hlog _ _ one_pos (by rw [one_lt_div he]; exact h)
    · exact hlog _ _ (div_pos ha he) (by rw [div_lt_div_iff_of_pos_right he]; exact h)
    · exact hlog _ _ (div_pos ha (by linarith)) (by rw [div_lt_div_iff_of_pos_left ha (by linarith) he]; exact h)

/-- Non-vacuity: such a function. -/
example : (∀ x y : ℚ, 0 < x → x < y → x - 1 < y - 1) ∧ (1 : ℚ) - 1 = 0 := ⟨fun x y _ h => by linarith, by norm_num⟩

/-- C248: before the classes are known, or when the first member refuses with a `ValueError` or a
`TypeError`, every row gets a single probability, 0. -/
theorem C248_unknown_partial (classes : Option (List Int)) (r : Nat) (w : Weight) (ms : List (Weight × Except PyErr (List (List ℚ)))) :
    (∀ p, p ≠ [] → predictProba none r ((w, .ok p) :: ms) = .ok (List.replicate r [0])) ∧
    predictProba classes r ((w, .error .valueError) :: ms) = .ok (List.replicate r [0]) ∧
    predictProba classes r ((w, .error .typeError) :: ms) = .ok (List.replicate r [0]) := by
  refine ⟨?_, rfl, rfl⟩
  intro p hp
  cases p with
  | nil => exact absurd rfl hp
  | cons p0 p => rfl

/-! ### Members without a vote -/

/-- C248 (violated): in RUSBoost a member has no vote as long as it predicted every sample shown to it
correctly. -/
theorem C248_perfect_ignored_violated (log : ℚ → ℚ) (E : Env σ δ X Rus (Nat × Nat)) (algorithm : Nat) (sr : ℚ)
    (hE : E.sc = rusBoost algorithm sr) (hsr : 0 < sr) (hb : E.b.Total) (n : Nat) (known : List Int) (c : Call X)
    (hc1 : c.classes = some known) (cs : List (Call X)) (hc : ∀ c ∈ cs, c.Fits known) :
    ∃ vs s, run E (c :: cs) (fresh E n) = .ok (vs, s) ∧ s.members.length = max n known.length ∧
      ∀ j < s.members.length, ∃ m, s.members[j]? = some m ∧
        ((∀ v ∈ visitsOf j vs, v.erred = false) → epsWeight log m.tally.eps = .warns) := by
  obtain ⟨vs, s, h1, h2, _, h3⟩ := C181_rus_boost E algorithm sr hE hsr hb n known c hc1 cs hc
  refine ⟨vs, s, h1, h2, fun j hj => ?_⟩
  obtain ⟨m, m1, _, m2⟩ := h3 j hj
  refine ⟨m, m1, fun hv => ?_⟩
  have : (visitsOf j vs).filter Visit.erred = [] := by
    rw [List.filter_eq_nil_iff]; intro v hv'; rw [hv v hv']; simp
  rw [m2, weighing, this, epsWeight, if_pos (by simp)]

/-- The hypotheses are met: `lastLabel` never errs on the sample it was just trained on. -/
example : ((run rusEnv [⟨[((), 1), ((), 0)], some [0, 1], none⟩] (fresh rusEnv 2)).toOption.map fun r =>
    r.2.members.map fun m => epsWeight id m.tally.eps) = some [.warns, .warns] := by decide +kernel

theorem vote_none (ms : List (Weight × List (List ℚ))) (h : ∀ b ∈ ms, b.1 = .warns) (n k : Nat) : vote ms n k = 0 := by
  unfold vote
  apply List.sum_eq_zero
  intro x hx
  obtain ⟨b, hb, rfl⟩ := List.mem_map.mp hx
  rw [h b hb]; simp [Weight.num]

/-- C248 (violated): when no member has a vote, class 0 is predicted for every row, whatever the
members say. -/
theorem C248_no_votes_violated (c : List Int) (m : Int) (hm : c.max? = some m) (r K : Nat) (hr : 0 < r) (hK : (K : Int) ≤ m + 1)
    (a : Weight × List (List ℚ)) (ms : List (Weight × List (List ℚ))) (hw : ∀ b ∈ a :: ms, b.1 = .warns)
    (hs : ∀ b ∈ a :: ms, Shaped r K b.2) :
    predictRows (some c) r ((a :: ms).map fun b => (b.1, .ok b.2)) = .ok (List.replicate r 0) := by
  obtain ⟨out, o1, o2, o3⟩ := C248_votes_partial c m hm r K hr hK a ms (fun b hb => by rw [hw b hb]; simp) hs
  rw [predictRows, o1]
  simp only [Except.map]
  congr 1
  apply List.ext_getElem
  · simp [o2.1]
  · intro n h1 h2
    simp only [List.length_map] at h1
    have hn : n < r := by rw [← o2.1]; exact h1
    simp only [List.getElem_map, List.getElem_replicate]
    have hz : out[n] = List.replicate K 0 := by
      apply List.ext_getElem?
      intro k
      have hlen := o2.2 _ (List.getElem_mem h1)
      by_cases hk : k < K
      · have := o3 n hn k hk
        simp only [vote_none _ hw, List.getElem?_eq_getElem h1, Option.getD_some] at this
        rw [this]
        simp [hk]
      · rw [List.getElem?_eq_none (by omega), List.getElem?_eq_none (by simp; omega)]
    rw [hz]
    exact Boosting.argmax_zeros K

/-- The hypotheses are met: both members are certain of class 1. -/
example : (predictRows (some [0, 1]) 1 [(.warns, .ok [[0, 1]]), (.warns, .ok [[0, 1]])]).toOption = some [0] := by decide +kernel

/-! ### Votes that are not probabilities -/

/-- C248 (violated): a member with an error above one half votes with a negative weight, and
`predict_proba` can return negative numbers. -/
theorem C248_negative_violated (u v : ℚ) (h1 : u < v) (h2 : v < 2 * u) :
    ∃ x y, predictProba (some [0, 1]) 1 [(.val v, .ok [[1/2, 1/2]]), (.val (-u), .ok [[1, 0]])] = .ok [[x, y]] ∧
      x < 0 ∧ 1 < y := by
  have hs : (0 : ℚ) < v - u := by linarith
  refine ⟨(v / 2 - u) / (v - u), (v / 2) / (v - u), ?_, ?_, ?_⟩
  · have e : votesLoop (some [0, 1]) [(.val v, .ok [[1/2, 1/2]]), (.val (-u), .ok [[1, 0]])] [] =
        .ok [[0 + v * (1/2) + -u * 1, 0 + v * (1/2) + -u * 0]] := rfl
    rw [predictProba, e]
    simp only [List.map_cons, List.map_nil, normalise, List.sum_cons, List.sum_nil]
    rw [if_pos (by linarith)]
    have e1 : 0 + v * (1 / 2) + -u * 1 = v / 2 - u := by ring
    have e2 : 0 + v * (1 / 2) + -u * 0 = v / 2 := by ring
    have e3 : v / 2 - u + (v / 2 + 0) = v - u := by ring
    rw [e1, e2, e3]
  · exact div_neg_of_neg_of_pos (by linarith) hs
  · rw [one_lt_div hs]; linarith

example : (2 : ℚ) < 3 ∧ (3 : ℚ) < 2 * 2 := by norm_num

/-- C248 (violated): a class that only a later member knows of gets that member's probability as it is,
whatever the member's weight, even if it is negative or missing. -/
theorem C248_unweighted_violated (w w' : Weight) (hw : w ≠ .missing) (hw' : w' ≠ .missing) (p q : ℚ) (x : ℚ) :
    ∃ y, votesLoop (some [0, 1]) [(w, .ok [[p]]), (w', .ok [[q, x]])] [] = .ok [[y, x]] := by
  refine ⟨0 + w.num * p + w'.num * q, ?_⟩
  cases w with
  | missing => exact absurd rfl hw
  | val v =>
    cases w' with
    | missing => exact absurd rfl hw'
    | val v' => rfl
    | warns =>
      have : votesLoop (some [0, 1]) [(.val v, .ok [[p]]), (.warns, .ok [[q, x]])] [] = .ok [[0 + v * p, x]] := rfl
      rw [this]; simp [Weight.num]
  | warns =>
    cases w' with
    | missing => exact absurd rfl hw'
    | val v' =>
      have : votesLoop (some [0, 1]) [(.warns, .ok [[p]]), (.val v', .ok [[q, x]])] [] = .ok [[0 + v' * q, x]] := rfl
      rw [this]; simp [Weight.num]
    | warns =>
      have : votesLoop (some [0, 1]) [(.warns, .ok [[p]]), (.warns, .ok [[q, x]])] [] = .ok [[0, x]] := rfl
      rw [this]; simp [Weight.num]

theorem addRow_missing (row p : List ℚ) : addRow .missing row p = row ++ p := by
  have gen : ∀ (p : List ℚ) (s : Nat) (row : List ℚ), (p.zipIdx s).foldl (addCell .missing) row = row ++ p := by
    intro p
    induction p with
    | nil => intro s row; simp
    | cons a p ih =>
      intro s row
      have : addCell .missing row (a, s) = row ++ [a] := by unfold addCell; simp
      rw [List.zipIdx_cons, List.foldl_cons, this, ih]; simp
  exact gen p 0 row

/-- C248 (violated): a member of AdaC2 that was added because there are more classes than members has no
entry in `wacc`; its probabilities are appended as further columns, so that a label beyond the known
classes can be predicted. -/
theorem C248_adac2_missing_violated (log : ℚ → ℚ) :
    adaWeight log (adaC2 1 1).extra.acc = .missing ∧
    (∀ row p : List ℚ, addRow .missing row p = row ++ p) ∧
    predictRows (some [0, 1]) 1 [(.val 1, .ok [[1/2, 1/2]]), (adaWeight log (adaC2 1 1).extra.acc, .ok [[0, 1]])] = .ok [3] := by
  refine ⟨rfl, addRow_missing, ?_⟩
  have : adaWeight log (adaC2 1 1).extra.acc = .missing := rfl
  rw [this]
  have h : (predictRows (some [0, 1]) 1 [(.val 1, .ok [[1/2, 1/2]]), (.missing, .ok [[0, 1]])]).toOption = some [3] := by
    decide +kernel
  cases hh : predictRows (some [0, 1]) 1 [(.val 1, .ok [[1/2, 1/2]]), (.missing, .ok [[0, 1]])] with
  | error e => rw [hh] at h; cases h
  | ok v => rw [hh] at h; simp only [Except.toOption, Option.some.injEq] at h; rw [h]

/-- C248 (violated): if one member merely warns while predicting, `predict_proba` raises, provided the
members before it answered. -/
theorem C248_warning_violated (c : List Int) (m : Int) (hm : c.max? = some m) (r K : Nat) (hr : 0 < r) (hK : (K : Int) ≤ m + 1)
    (ms : List (Weight × List (List ℚ))) (hs : ∀ b ∈ ms, Shaped r K b.2) (w : Weight)
    (rest : List (Weight × Except PyErr (List (List ℚ)))) :
    predictProba (some c) r ((ms.map fun b => (b.1, .ok b.2)) ++ (w, .error .other) :: rest) = .error .other := by
  have gen : ∀ (ms : List (Weight × List (List ℚ))) (_ : ∀ b ∈ ms, Shaped r K b.2) (acc : List (List ℚ)),
      votesLoop (some c) ((ms.map fun b => (b.1, .ok b.2)) ++ (w, .error .other) :: rest) acc = .error .other := by
    intro ms
    induction ms with
    | nil => intro _ acc; rfl
    | cons b ms ih =>
      intro hs acc
      obtain ⟨v, p⟩ := b
      have hsp := hs (v, p) (by simp)
      simp only at hsp
      rw [List.map_cons, List.cons_append]
      cases p with
      | nil => have := hsp.1; simp at this; omega
      | cons p0 ps =>
        have hl : p0.length = K := hsp.2 _ (by simp)
        simp only [votesLoop, hm]
        rw [if_neg (by rw [hl]; omega)]
        exact ih (fun b hb => hs b (by simp [hb])) _
  rw [predictProba, gen ms hs]

example : (predictProba (some [0, 1]) 1 [(.val 1, .ok [[1/2, 1/2]]), (.val 1, .error .other)]).toOption = none := by decide +kernel

/-- C248 (violated): a member that reports more columns than the largest class plus one makes the answer a
single column of zeros for every row: the other members' votes are dropped and class 0 is predicted. -/
theorem C248_too_many_violated (c : List Int) (m : Int) (hm : c.max? = some m) (r K : Nat) (hr : 0 < r) (hK : (K : Int) ≤ m + 1)
    (ms : List (Weight × List (List ℚ))) (hs : ∀ b ∈ ms, Shaped r K b.2) (w : Weight) (q : List ℚ) (qs : List (List ℚ))
    (hq : (q.length : Int) > m + 1) (rest : List (Weight × Except PyErr (List (List ℚ)))) :
    predictRows (some c) r ((ms.map fun b => (b.1, .ok b.2)) ++ (w, .ok (q :: qs)) :: rest) = .ok (List.replicate r 0) := by
  have gen : ∀ (ms : List (Weight × List (List ℚ))) (_ : ∀ b ∈ ms, Shaped r K b.2) (acc : List (List ℚ)),
      votesLoop (some c) ((ms.map fun b => (b.1, .ok b.2)) ++ (w, .ok (q :: qs)) :: rest) acc = .error .valueError := by
    intro ms
    induction ms with
    | nil =>
      intro _ acc
      simp only [List.map_nil, List.nil_append, votesLoop, hm]
      rw [if_pos hq]
    | cons b ms ih =>
      intro hs acc
      obtain ⟨v, p⟩ := b
      have hsp := hs (v, p) (by simp)
      simp only at hsp
      rw [List.map_cons, List.cons_append]
      cases p with
      | nil => have := hsp.1; simp at this; omega
      | cons p0 ps =>
        have hl : p0.length = K := hsp.2 _ (by simp)
        simp only [votesLoop, hm]
        rw [if_neg (by rw [hl]; omega)]
        exact ih (fun b hb => hs b (by simp [hb])) _
  rw [predictRows, predictProba, gen ms hs]
  simp only [Except.map, List.map_replicate]
  congr 1

example : ([0, 1] : List Int).max? = some 1 ∧ (([0, 0, 1] : List ℚ).length : Int) > 1 + 1 := by decide

end Verif.Meta.Skew
