import Verif.Trees.Learn
import Verif.Lazy.KNN
import Mathlib.Data.List.Forall2

/-!
Model of prediction and of the rule description of `trees/hoeffding_tree.py`, lines
355-437 and 791-816; C126, C127.  Continues `Trees/Learn.lean`.
-/

namespace Verif.Trees.HL

open Verif.Trees

variable {O : Type}

/-- `_get_votes_for_instance`, lines 355-376. -/
def votesAt (cfg : Cfg O) (root : Option (T O)) (x : List ℚ) : Except PyErr (List (Int × ℚ)) :=
  match root with
  | none => .ok []
  | some r =>
    match r.filter x [] with
    | .error e => .error e
    | .ok (.missing p _) =>
      match r.get p with
      | some (.split _ st _) => .ok st
      | _ => .error .attributeError
    | .ok (.node p) =>
      match r.get p with
      | some (.leaf l) => .ok (l.votes cfg x)
      | some (.split _ st _) => .ok st
      | none => .error .attributeError

/-- `a[k] = v` on a numpy array: negative indices count from the end. -/
def assign (a : List ℚ) (k : Int) (v : ℚ) : Except PyErr (List ℚ) :=
  if 0 ≤ k then
    if k.toNat < a.length then .ok (a.set k.toNat v) else .error .indexError
  else if k.natAbs ≤ a.length then .ok (a.set (a.length - k.natAbs) v) else .error .indexError

/-- Lines 428-429. -/
def assignAll : List (Int × ℚ) → List ℚ → Except PyErr (List ℚ)
  | [], a => .ok a
  | (k, v) :: l, a =>
    match assign a k v with
    | .error e => .error e
    | .ok a' => assignAll l a'

/-- Lines 418-430: the row of one instance from its votes; `classes` as given to `partial_fit`. -/
def probaRow (classes : Option (List Int)) (votes : List (Int × ℚ)) : Except PyErr (List ℚ) :=
  match votes with
  | [] => .ok [0]
  | (k, v) :: l =>
    let s := (((k, v) :: l).map Prod.snd).sum
    let votes := if s ≠ 0 then ((k, v) :: l).map fun q => (q.1, q.2 / s) else (k, v) :: l
    let labels := classes.getD (k :: l.map Prod.fst)
    match labels with
    | [] => .error .valueError
    | c :: cs =>
      let width := cs.foldl max c + 1
      if width < 0 then .error .valueError else assignAll votes (List.replicate width.toNat 0)

/-- Line 436: rows padded with zeros to the longest. -/
def pad (rows : List (List ℚ)) : List (List ℚ) :=
  let w := (rows.map List.length).foldl max 0
  rows.map fun r => r ++ List.replicate (w - r.length) 0

/-- All items, or the first error. -/
def collect {α β : Type} (f : α → Except PyErr β) : List α → Except PyErr (List β)
  | [] => .ok []
  | a :: l =>
    match f a with
    | .error e => .error e
    | .ok b => match collect f l with
      | .error e => .error e
      | .ok bs => .ok (b :: bs)

/-- `predict_proba`, lines 400-437.  With `classes`, rows of an empty leaf are shorter
than the others (numpy then makes an array of rows). -/
def proba (cfg : Cfg O) (root : Option (T O)) (classes : Option (List Int)) (rows : List (List ℚ)) :
    Except PyErr (List (List ℚ)) :=
  match collect (fun x => match votesAt cfg root x with
    | .error e => .error e
    | .ok v => probaRow classes v) rows with
  | .error e => .error e
  | .ok ps => .ok (match classes with
    | some _ => ps
    | none => pad ps)

/-- `predict`, lines 378-398. -/
def predict (cfg : Cfg O) (root : Option (T O)) (classes : Option (List Int)) (rows : List (List ℚ)) :
    Except PyErr (List Nat) :=
  match proba cfg root classes rows with
  | .error e => .error e
  | .ok ps => .ok (ps.map Lazy.argmax)

/-! ### C126 -/

/-- The vote for a label, 0 if it has none. -/
def voteFor (votes : List (Int × ℚ)) (c : Nat) : ℚ := (votes.lookup (c : Int)).getD 0

theorem assignAll_ok (votes : List (Int × ℚ)) (a : List ℚ) (hn : (votes.map Prod.fst).Nodup)
    (hr : ∀ q ∈ votes, 0 ≤ q.1 ∧ q.1 < a.length) :
    ∃ a', assignAll votes a = .ok a' ∧ a'.length = a.length ∧
      ∀ c : Nat, a'[c]? = match votes.lookup (c : Int) with
        | some v => some v
        | none => a[c]? := by
  induction votes generalizing a with
  | nil => exact ⟨a, rfl, rfl, fun c => rfl⟩
  | cons q votes ih =>
    obtain ⟨k, v⟩ := q
    obtain ⟨h1, h2⟩ := hr (k, v) List.mem_cons_self
    simp only at h1 h2
    rw [List.map_cons, List.nodup_cons] at hn
    obtain ⟨a', g1, g2, g3⟩ := ih (a.set k.toNat v) hn.2 (fun q hq => by
      rw [List.length_set]; exact hr q (List.mem_cons_of_mem _ hq))
    refine ⟨a', ?_, by rw [g2, List.length_set], fun c => ?_⟩
    · rw [assignAll, assign, if_pos h1, if_pos (by omega)]
      exact g1
    · rw [g3 c, List.lookup_cons]
      by_cases hc : (c : Int) = k
      · have hk : k.toNat = c := by omega
        have : votes.lookup (c : Int) = none := by
          rw [List.lookup_eq_none_iff]
          intro q hq
          have : q.1 ≠ k := fun e => hn.1 (List.mem_map.2 ⟨q, hq, e⟩)
          simp only [hc, bne_iff_ne, ne_eq, beq_eq_false_iff_ne]
          exact fun e => this e.symm
        rw [this, hk]
        simp only [hc, BEq.rfl]
        rw [List.getElem?_set_self (by omega)]
      · have hk : k.toNat ≠ c := by omega
        have : ((c : Int) == k) = false := by simpa using hc
        simp only [this]
        cases votes.lookup (c : Int) with
        | none => simp only; rw [List.getElem?_set_ne hk]
        | some w => rfl

/-- The largest label a row has to hold: of `classes` if given, else of the votes. -/
def IsTop (classes : Option (List Int)) (votes : List (Int × ℚ)) (m : Nat) : Prop :=
  let labels := classes.getD (votes.map Prod.fst)
  (m : Int) ∈ labels ∧ ∀ c ∈ labels, c ≤ m

theorem foldl_max_top (c : Int) (cs : List Int) (m : Int) (h1 : m ∈ c :: cs) (h2 : ∀ d ∈ c :: cs, d ≤ m) :
    cs.foldl max c = m := by
  induction cs generalizing c with
  | nil => exact (List.mem_singleton.1 h1).symm
  | cons d cs ih =>
    rw [List.foldl_cons]
    apply ih
    · rcases List.mem_cons.1 h1 with rfl | h1
      · have := h2 d (by simp)
        rw [max_eq_left this]; simp
      · rcases List.mem_cons.1 h1 with rfl | h1
        · have := h2 c (by simp)
          rw [max_eq_right this]; simp
        · simp [h1]
    · intro e he
      rcases List.mem_cons.1 he with rfl | he
      · exact max_le (h2 c (by simp)) (h2 d (by simp))
      · exact h2 e (by simp [he])

theorem lookup_map_div (votes : List (Int × ℚ)) (s : ℚ) (c : Int) :
    (votes.map fun q => (q.1, q.2 / s)).lookup c = (votes.lookup c).map (· / s) := by
  induction votes with
  | nil => rfl
  | cons q votes ih =>
    rw [List.map_cons, List.lookup_cons, List.lookup_cons]
    cases c == q.1 with
    | true => rfl
    | false => exact ih

/-- **C126, partial.** When all votes are for labels in `0..m` (`m` the largest of
`classes`, or of the votes when no classes were given), the row has `m + 1` entries:
entry `c` is the share of the votes for class `c`. -/
theorem C126_proba_row_partial (classes : Option (List Int)) (votes : List (Int × ℚ)) (m : Nat)
    (hm : IsTop classes votes m) (hne : votes ≠ []) (hn : (votes.map Prod.fst).Nodup)
    (hr : ∀ q ∈ votes, 0 ≤ q.1 ∧ q.1 ≤ m) (hs : (votes.map Prod.snd).sum ≠ 0) :
    ∃ row, probaRow classes votes = .ok row ∧ row.length = m + 1 ∧
      ∀ c, c ≤ m → row[c]? = some (voteFor votes c / (votes.map Prod.snd).sum) := by
  obtain ⟨⟨k, v⟩, l, rfl⟩ := List.exists_cons_of_ne_nil hne
  unfold probaRow
  unfold IsTop at hm
  rw [List.map_cons] at hm
  simp only at hm ⊢
  generalize hlab : classes.getD (k :: l.map Prod.fst) = labels at hm ⊢
  cases labels with
  | nil => simp at hm
  | cons c cs =>
    simp only
    rw [foldl_max_top c cs m hm.1 hm.2, if_neg (by omega), if_pos hs]
    obtain ⟨row, h1, h2, h3⟩ := assignAll_ok
      (((k, v) :: l).map fun q => (q.1, q.2 / (((k, v) :: l).map Prod.snd).sum))
      (List.replicate ((m : Int) + 1).toNat 0)
      (by simpa [Function.comp_def] using hn)
      (by
        intro q hq
        obtain ⟨q', hq', rfl⟩ := List.mem_map.1 hq
        have := hr q' hq'
        simp only [List.length_replicate]
        omega)
    refine ⟨row, h1, ?_, fun d hd => ?_⟩
    · rw [h2, List.length_replicate]; omega
    · rw [h3 d, lookup_map_div, voteFor]
      cases ((k, v) :: l).lookup (d : Int) with
      | none =>
        simp only [Option.map_none, Option.getD_none, zero_div]
        rw [List.getElem?_replicate, if_pos (by omega)]
      | some w => rfl

theorem sum_getElem (row : List ℚ) (f : Nat → ℚ) (n : Nat) (hl : row.length = n)
    (h : ∀ c, c < n → row[c]? = some (f c)) : row = (List.range n).map f := by
  apply List.ext_getElem?
  intro c
  by_cases hc : c < n
  · rw [h c hc, List.getElem?_map, List.getElem?_range hc]; rfl
  · rw [List.getElem?_eq_none (by omega), List.getElem?_eq_none (by simp; omega)]

theorem sum_votes (votes : List (Int × ℚ)) (n : Nat) (hn : (votes.map Prod.fst).Nodup)
    (hr : ∀ q ∈ votes, 0 ≤ q.1 ∧ q.1 < n) :
    ((List.range n).map (voteFor votes)).sum = (votes.map Prod.snd).sum := by
  induction votes with
  | nil =>
    have : ∀ cs : List Nat, (cs.map (voteFor [])).sum = 0 := by
      intro cs
      induction cs with
      | nil => rfl
      | cons c cs ih => rw [List.map_cons, List.sum_cons, ih]; simp [voteFor]
    exact this _
  | cons q votes ih =>
    obtain ⟨k, v⟩ := q
    rw [List.map_cons, List.nodup_cons] at hn
    have h1 := hr (k, v) List.mem_cons_self
    simp only at h1
    have hnone : votes.lookup k = none := by
      rw [List.lookup_eq_none_iff]
      intro q hq
      have : q.1 ≠ k := fun e => hn.1 (List.mem_map.2 ⟨q, hq, e⟩)
      simpa using fun e => this e.symm
    have hv : ∀ c : Nat, voteFor ((k, v) :: votes) c = voteFor votes c + if c = k.toNat then v else 0 := by
      intro c
      unfold voteFor
      rw [List.lookup_cons]
      by_cases hc : (c : Int) = k
      · rw [hc, hnone, if_pos (by omega)]; simp
      · have : ((c : Int) == k) = false := by simpa using hc
        rw [this, if_neg (by omega)]; simp
    have hsum : ∀ (cs : List Nat), cs.Nodup → k.toNat ∈ cs →
        (cs.map (voteFor ((k, v) :: votes))).sum = (cs.map (voteFor votes)).sum + v := by
      intro cs
      induction cs with
      | nil => intro _ h; simp at h
      | cons c cs ihc =>
        intro hnd hmem
        rw [List.nodup_cons] at hnd
        simp only [List.map_cons, List.sum_cons, hv c]
        by_cases hc : c = k.toNat
        · rw [if_pos hc]
          have : (cs.map (voteFor ((k, v) :: votes))) = cs.map (voteFor votes) := by
            apply List.map_congr_left
            intro d hd
            rw [hv d, if_neg (fun e => hnd.1 (by rw [hc, ← e]; exact hd)), add_zero]
          rw [this]; ring
        · rw [if_neg hc, ihc hnd.2 (by
            rcases List.mem_cons.1 hmem with h | h
            · exact absurd h.symm hc
            · exact h)]
          ring
    rw [hsum _ List.nodup_range (List.mem_range.2 (by omega)),
      ih hn.2 (fun q hq => hr q (List.mem_cons_of_mem _ hq))]
    simp only [List.map_cons, List.sum_cons]; ring

/-- **C126, partial.** Such a row sums to one. -/
theorem C126_row_sums_to_one_partial (classes : Option (List Int)) (votes : List (Int × ℚ)) (m : Nat)
    (hm : IsTop classes votes m) (hne : votes ≠ []) (hn : (votes.map Prod.fst).Nodup)
    (hr : ∀ q ∈ votes, 0 ≤ q.1 ∧ q.1 ≤ m) (hs : (votes.map Prod.snd).sum ≠ 0) :
    ∃ row, probaRow classes votes = .ok row ∧ row.sum = 1 := by
  obtain ⟨row, h1, h2, h3⟩ := C126_proba_row_partial classes votes m hm hne hn hr hs
  refine ⟨row, h1, ?_⟩
  rw [sum_getElem row (fun c => voteFor votes c / (votes.map Prod.snd).sum) (m + 1) h2
    (fun c hc => h3 c (by omega))]
  have : ∀ (cs : List Nat) (s : ℚ), (cs.map fun c => voteFor votes c / s).sum = (cs.map (voteFor votes)).sum / s := by
    intro cs s
    induction cs with
    | nil => simp
    | cons c cs ih => simp only [List.map_cons, List.sum_cons, ih, add_div]
  rw [this, sum_votes votes (m + 1) hn (fun q hq => by have := hr q hq; push_cast; omega)]
  exact div_self hs

theorem mem_lookup (votes : List (Int × ℚ)) (hn : (votes.map Prod.fst).Nodup) (q : Int × ℚ) (hq : q ∈ votes) :
    votes.lookup q.1 = some q.2 := by
  induction votes with
  | nil => simp at hq
  | cons a votes ih =>
    rw [List.map_cons, List.nodup_cons] at hn
    rw [List.lookup_cons]
    rcases List.mem_cons.1 hq with rfl | hq
    · simp
    · have : q.1 ≠ a.1 := fun e => hn.1 (List.mem_map.2 ⟨q, hq, e⟩)
      have : (q.1 == a.1) = false := by simpa using this
      rw [this]
      exact ih hn.2 hq

theorem lookup_mem (votes : List (Int × ℚ)) (c : Int) (v : ℚ) (h : votes.lookup c = some v) : (c, v) ∈ votes := by
  induction votes with
  | nil => simp at h
  | cons a votes ih =>
    rw [List.lookup_cons] at h
    by_cases e : c = a.1
    · have : (c == a.1) = true := by simpa using e
      rw [this] at h
      cases h
      rw [e]; simp
    · have : (c == a.1) = false := by simpa using e
      rw [this] at h
      exact List.mem_cons_of_mem _ (ih h)

theorem argmax_append_zeros (row : List ℚ) (n : Nat) (h : ∃ v ∈ row, 0 ≤ v) :
    Lazy.argmax (row ++ List.replicate n 0) = Lazy.argmax row := by
  obtain ⟨w, hw, hw0⟩ := h
  have hne : row ≠ [] := by rintro rfl; simp at hw
  obtain ⟨v, h1, h2, h3⟩ := Lazy.argmax_spec row hne
  obtain ⟨v', h1', h2', h3'⟩ := Lazy.argmax_spec (row ++ List.replicate n 0) (by simp [hne])
  have hlt : Lazy.argmax row < row.length := by
    by_contra hge; rw [List.getElem?_eq_none (by omega)] at h1; cases h1
  have hv0 : 0 ≤ v := hw0.trans (h2 w hw)
  have hvv : v' = v := by
    apply le_antisymm
    · have := List.mem_of_getElem? h1'
      rcases List.mem_append.1 this with h | h
      · exact h2 v' h
      · rw [(List.mem_replicate.1 h).2]; exact hv0
    · exact h2' v (List.mem_append_left _ (List.mem_of_getElem? h1))
  rcases lt_trichotomy (Lazy.argmax (row ++ List.replicate n 0)) (Lazy.argmax row) with h | h | h
  · rw [List.getElem?_append_left (by omega)] at h1'
    have := h3 _ v' h h1'
    rw [hvv] at this
    exact absurd this (lt_irrefl _)
  · exact h
  · have := h3' _ v h (by rw [List.getElem?_append_left hlt]; exact h1)
    rw [hvv] at this
    exact absurd this (lt_irrefl _)

/-- **C126, partial.** With non-negative votes for labels in `0..m`, not all zero, the
predicted class is the one with the most votes, the smallest such label; padding of
the row (batches without `classes`) does not change it. -/
theorem C126_predict_row_partial (classes : Option (List Int)) (votes : List (Int × ℚ)) (m : Nat)
    (hm : IsTop classes votes m) (hn : (votes.map Prod.fst).Nodup)
    (hr : ∀ q ∈ votes, 0 ≤ q.1 ∧ q.1 ≤ m ∧ 0 ≤ q.2) (hs : ∃ q ∈ votes, 0 < q.2) (extra : Nat) :
    ∃ row k v, probaRow classes votes = .ok row ∧ Lazy.argmax (row ++ List.replicate extra 0) = k ∧
      ((k : Int), v) ∈ votes ∧ (∀ q ∈ votes, q.2 ≤ v) ∧ ∀ q ∈ votes, q.1 < k → q.2 < v := by
  obtain ⟨q0, hq0, hpos⟩ := hs
  have hsum : 0 < (votes.map Prod.snd).sum := by
    have : q0.2 ≤ (votes.map Prod.snd).sum := by
      clear hm hn
      induction votes with
      | nil => simp at hq0
      | cons a votes ih =>
        have hnn : 0 ≤ (votes.map Prod.snd).sum := by
          clear ih hq0
          induction votes with
          | nil => simp
          | cons b votes ih =>
            have hb := (hr b (by simp)).2.2
            have := ih (fun q hq => hr q (by
              rcases List.mem_cons.1 hq with rfl | hq
              · simp
              · simp [hq]))
            simp only [List.map_cons, List.sum_cons]; linarith
        have ha := (hr a (by simp)).2.2
        simp only [List.map_cons, List.sum_cons]
        rcases List.mem_cons.1 hq0 with rfl | h
        · linarith
        · have := ih (fun q hq => hr q (List.mem_cons_of_mem _ hq)) h
          linarith
    linarith
  have hne : votes ≠ [] := by rintro rfl; simp at hq0
  obtain ⟨row, h1, h2, h3⟩ := C126_proba_row_partial classes votes m hm hne hn
    (fun q hq => ⟨(hr q hq).1, (hr q hq).2.1⟩) (ne_of_gt hsum)
  have hrne : row ≠ [] := by rintro rfl; simp at h2
  obtain ⟨b, a1, a2, a3⟩ := Lazy.argmax_spec row hrne
  have hlt : Lazy.argmax row < row.length := by
    by_contra hge; rw [List.getElem?_eq_none (by omega)] at a1; cases a1
  have hb := h3 (Lazy.argmax row) (by omega)
  rw [a1, Option.some.injEq] at hb
  have hval : ∀ q ∈ votes, row[q.1.toNat]? = some (q.2 / (votes.map Prod.snd).sum) := by
    intro q hq
    obtain ⟨r1, r2, _⟩ := hr q hq
    rw [h3 q.1.toNat (by omega), voteFor, show ((q.1.toNat : Nat) : Int) = q.1 by omega,
      mem_lookup votes hn q hq]
    rfl
  have hq0b : q0.2 / (votes.map Prod.snd).sum ≤ b := a2 _ (List.mem_of_getElem? (hval q0 hq0))
  have hbpos : 0 < b := lt_of_lt_of_le (div_pos hpos hsum) hq0b
  cases hl : votes.lookup ((Lazy.argmax row : Nat) : Int) with
  | none =>
    rw [voteFor, hl] at hb
    simp at hb
    rw [hb] at hbpos
    exact absurd hbpos (lt_irrefl _)
  | some v =>
    rw [voteFor, hl] at hb
    simp only [Option.getD_some] at hb
    refine ⟨row, Lazy.argmax row, v, h1, argmax_append_zeros row extra ⟨b, List.mem_of_getElem? a1, hbpos.le⟩,
      lookup_mem votes _ v hl, ?_, ?_⟩
    · intro q hq
      have := a2 _ (List.mem_of_getElem? (hval q hq))
      rw [hb] at this
      exact (div_le_div_iff_of_pos_right hsum).1 this
    · intro q hq hk
      obtain ⟨r1, _, _⟩ := hr q hq
      have := a3 q.1.toNat _ (by omega) (hval q hq)
      rw [hb] at this
      exact (div_lt_div_iff_of_pos_right hsum).1 this

/-- `k` is the label with the most votes, the smallest such. -/
def MostVoted (votes : List (Int × ℚ)) (k : Nat) : Prop :=
  ∃ v, ((k : Int), v) ∈ votes ∧ (∀ q ∈ votes, q.2 ≤ v) ∧ ∀ q ∈ votes, q.1 < k → q.2 < v

theorem collect_forall₂ {α β : Type} (f : α → Except PyErr β) (R : α → β → Prop) (l : List α)
    (h : ∀ a ∈ l, ∃ b, f a = .ok b ∧ R a b) : ∃ bs, collect f l = .ok bs ∧ List.Forall₂ R l bs := by
  induction l with
  | nil => exact ⟨[], rfl, .nil⟩
  | cons a l ih =>
    obtain ⟨b, h1, h2⟩ := h a List.mem_cons_self
    obtain ⟨bs, h3, h4⟩ := ih fun a' ha => h a' (List.mem_cons_of_mem _ ha)
    exact ⟨b :: bs, by simp only [collect, h1, h3], .cons h2 h4⟩

/-- **C126, partial.** `predict` on a batch answers every row with the smallest of the
most voted labels for that row, whatever the other rows are. -/
theorem C126_predict_batch_partial (cfg : Cfg O) (root : Option (T O)) (classes : Option (List Int))
    (rows : List (List ℚ))
    (h : ∀ x ∈ rows, ∃ votes m, votesAt cfg root x = .ok votes ∧ IsTop classes votes m ∧
      (votes.map Prod.fst).Nodup ∧ (∀ q ∈ votes, 0 ≤ q.1 ∧ q.1 ≤ m ∧ 0 ≤ q.2) ∧ ∃ q ∈ votes, 0 < q.2) :
    ∃ ks, predict cfg root classes rows = .ok ks ∧
      List.Forall₂ (fun x k => ∃ votes, votesAt cfg root x = .ok votes ∧ MostVoted votes k) rows ks := by
  obtain ⟨ps, h1, h2⟩ := collect_forall₂ (fun x => match votesAt cfg root x with
    | .error e => .error e
    | .ok v => probaRow classes v)
    (fun x row => ∀ extra, ∃ votes, votesAt cfg root x = .ok votes ∧
      MostVoted votes (Lazy.argmax (row ++ List.replicate extra 0))) rows (by
      intro x hx
      obtain ⟨votes, m, g1, g2, g3, g4, g5⟩ := h x hx
      obtain ⟨row, k, v, r1, r2, r3⟩ := C126_predict_row_partial classes votes m g2 g3 g4 g5 0
      refine ⟨row, by simp only [g1, r1], fun extra => ⟨votes, g1, ?_⟩⟩
      obtain ⟨row', k', v', r1', r2', r3'⟩ := C126_predict_row_partial classes votes m g2 g3 g4 g5 extra
      rw [r1, Except.ok.injEq] at r1'
      subst r1'
      rw [r2']
      exact ⟨v', r3'⟩)
  unfold predict proba
  simp only [h1]
  refine ⟨_, rfl, ?_⟩
  rw [List.forall₂_map_right_iff]
  cases classes with
  | some _ =>
    exact h2.imp fun x row hr => by simpa using hr 0
  | none =>
    simp only [pad]
    rw [List.forall₂_map_right_iff]
    exact h2.imp fun x row hr => hr _

theorem foldl_max_spec (l : List Nat) (a : Nat) : (∀ x ∈ l, x ≤ l.foldl max a) ∧ a ≤ l.foldl max a ∧
    (l.foldl max a = a ∨ l.foldl max a ∈ l) := by
  induction l generalizing a with
  | nil => simp
  | cons b l ih =>
    obtain ⟨h1, h2, h3⟩ := ih (max a b)
    simp only [List.foldl_cons]
    refine ⟨?_, by omega, ?_⟩
    · intro x hx
      rcases List.mem_cons.1 hx with rfl | hx
      · omega
      · exact h1 x hx
    · rcases h3 with h3 | h3
      · rw [h3]
        rcases le_total a b with h | h
        · right; rw [max_eq_right h]; simp
        · left; rw [max_eq_left h]
      · right; exact List.mem_cons_of_mem _ h3

/-- **C126, partial.** The rows of a batch are those of its instances taken one by one;
without `classes` they are padded with zeros to the length of the longest of them. -/
theorem C126_batch_rows_partial (cfg : Cfg O) (root : Option (T O)) (classes : Option (List Int))
    (xs : List (List ℚ)) (rs : List (List ℚ))
    (h : List.Forall₂ (fun x r => proba cfg root classes [x] = .ok [r]) xs rs) :
    ∃ ps, proba cfg root classes xs = .ok ps ∧ (classes ≠ none → ps = rs) ∧
      (classes = none → ∃ w, (∀ r ∈ rs, r.length ≤ w) ∧ (xs ≠ [] → ∃ r ∈ rs, r.length = w) ∧
        ps = rs.map fun r => r ++ List.replicate (w - r.length) 0) := by
  have h1 : ∀ x r, proba cfg root classes [x] = .ok [r] →
      (match votesAt cfg root x with
        | .error e => Except.error e
        | .ok v => probaRow classes v) = .ok r := by
    intro x r hx
    unfold proba collect collect at hx
    cases hf : (match votesAt cfg root x with
        | .error e => Except.error e
        | .ok v => probaRow classes v) with
    | error e => simp only [hf] at hx; cases hx
    | ok q =>
      simp only [hf] at hx
      cases classes with
      | some c => simpa using hx
      | none => simpa [pad] using hx
  have h2 : collect (fun x => match votesAt cfg root x with
        | .error e => .error e
        | .ok v => probaRow classes v) xs = .ok rs := by
    induction h with
    | nil => rfl
    | cons hx _ ih => unfold collect; simp only [h1 _ _ hx, ih]
  unfold proba
  simp only [h2]
  refine ⟨_, rfl, ?_, ?_⟩
  · intro hc
    cases classes with
    | none => exact absurd rfl hc
    | some c => rfl
  · rintro rfl
    refine ⟨(rs.map List.length).foldl max 0, ?_, ?_, rfl⟩
    · intro r hr
      exact (foldl_max_spec (rs.map List.length) 0).1 _ (List.mem_map_of_mem hr)
    · intro hne
      rcases (foldl_max_spec (rs.map List.length) 0).2.2 with e | e
      · cases h with
        | nil => exact absurd rfl hne
        | @cons x r xs rs hx ht =>
          refine ⟨r, by simp, ?_⟩
          have := (foldl_max_spec ((r :: rs).map List.length) 0).1 r.length (by simp)
          omega
      · obtain ⟨r, hr, e'⟩ := List.mem_map.1 e
        exact ⟨r, hr, e'⟩

/-- **C126, partial.** The votes are those of the leaf the instance reaches; an
unseen value of a multiway split is answered by the statistics of the split node. -/
theorem C126_votes_partial (cfg : Cfg O) (n : Nat) (r : T O) (h : r.WF n) (x : List ℚ) (hx : x.length = n) :
    ∃ p, r.filter x [] = .ok (.node p) ∧
      ((∃ l, r.get p = some (.leaf l) ∧ votesAt cfg (some r) x = .ok (l.votes cfg x)) ∨
       (∃ m st kids, r.get p = some (.split (.multi m) st kids) ∧ m.branch x = .ok (-1) ∧
          votesAt cfg (some r) x = .ok st)) := by
  obtain ⟨p, s, f1, f2, _, f4⟩ := T.filter_ok n x hx r h []
  rw [List.nil_append] at f1
  refine ⟨p, f1, ?_⟩
  rcases f4 with ⟨l, rfl⟩ | ⟨m, st, kids, rfl, hb⟩
  · exact .inl ⟨l, f2, by simp only [votesAt, f1, f2]⟩
  · exact .inr ⟨m, st, kids, f2, hb, by simp only [votesAt, f1, f2]⟩

/-- An untrained tree answers class 0 for every row. -/
theorem C126_untrained (cfg : Cfg O) (classes : Option (List Int)) (rows : List (List ℚ)) :
    predict cfg none classes rows = .ok (rows.map fun _ => 0) := by
  have hc : collect (fun x => match votesAt cfg (none : Option (T O)) x with
      | .error e => .error e
      | .ok v => probaRow classes v) rows = .ok (rows.map fun _ => [0]) := by
    induction rows with
    | nil => rfl
    | cons x rows ih => simp only [collect, ih, List.map_cons]; rfl
  unfold predict proba
  simp only [hc]
  cases classes with
  | some _ => simp [Function.comp_def, Lazy.argmax]
  | none =>
    simp only [pad, List.map_map, Except.ok.injEq]
    apply List.map_congr_left
    intro x _
    simp only [Function.comp]
    rw [argmax_append_zeros [0] _ ⟨0, by simp, le_refl _⟩]
    rfl

/-- **C126, violated.** Class `-1` of a two-class problem with labels `-1` and `1` is
never predicted: both labels write into the same column, whatever their weights. -/
theorem C126_negative_label_violated (a b : ℚ) (ha : 0 < a) (hb : 0 < b) :
    probaRow none [(-1, a), (1, b)] = .ok [0, b / (a + b)] ∧
    probaRow (some [-1, 1]) [(-1, a), (1, b)] = .ok [0, b / (a + b)] ∧
    Lazy.argmax [0, b / (a + b)] = 1 := by
  have h : a + (b + 0) ≠ 0 := by positivity
  have hp : 0 < b / (a + b) := by positivity
  refine ⟨?_, ?_, ?_⟩
  · simp only [probaRow, List.map_cons, List.map_nil, List.sum_cons, List.sum_nil, if_pos h]
    simp [assignAll, assign, List.replicate]
  · simp only [probaRow, List.map_cons, List.map_nil, List.sum_cons, List.sum_nil, if_pos h]
    simp [assignAll, assign, List.replicate]
  · simp [Lazy.argmax, hp]

/-- **C126, violated.** Once a leaf has seen a label above all of `classes` (given in
the first call), asking for a prediction there raises. -/
theorem C126_label_outside_classes_violated (c : Nat) (k : Nat) (hk : c < k) (v : ℚ) :
    probaRow (some [(c : Int)]) [((k : Int), v)] = .error .indexError := by
  have h1 : ¬ ((c : Int) + 1 < 0) := by have := Int.natCast_nonneg c; linarith
  have h2 : ¬ ((k : Int).toNat < (List.replicate ((c : Int) + 1).toNat (0 : ℚ)).length) := by
    rw [List.length_replicate]; omega
  simp only [probaRow, Option.getD_some, List.foldl_nil, if_neg h1]
  by_cases hs : ([((k : Int), v)].map Prod.snd).sum ≠ 0
  · rw [if_pos hs]
    simp only [List.map_cons, List.map_nil, assignAll, assign, if_pos (Int.natCast_nonneg k), if_neg h2]
    exact if_neg h1
  · rw [if_neg hs]
    simp only [assignAll, assign, if_pos (Int.natCast_nonneg k), if_neg h2]
    exact if_neg h1

/-! ### C127: rules -/

mutual
/-- `get_model_rules`, lines 791-816: predicates, class weights and class of every rule. -/
def T.rules : T O → List Predicate → Except PyErr (List (List Predicate × Stats × Int))
  | .leaf l, ps =>
    match maxKey l.stats with
    | none => .error .valueError
    | some k => .ok [(ps, l.stats, k)]
  | .split t _ kids, ps => kids.rules t ps
/-- See `T.rules`. -/
def F.rules (t : Test) : F O → List Predicate → Except PyErr (List (List Predicate × Stats × Int))
  | .nil, _ => .ok []
  | .cons j s rest, ps =>
    match t.rule (j : Int) with
    | .error e => .error e
    | .ok p =>
      match s.rules (ps ++ [p]) with
      | .error e => .error e
      | .ok a =>
        match rest.rules t ps with
        | .error e => .error e
        | .ok b => .ok (a ++ b)
end

/-- `get_model_rules` of the tree; the root of an untrained tree is `None`. -/
def modelRules : Option (T O) → Except PyErr (List (List Predicate × Stats × Int))
  | none => .error .attributeError
  | some r => r.rules []

/-- `Rule.covers_instance`, rules/base_rule.py 62-79: no predicate fails. -/
def holds (ps : List Predicate) (x : List ℚ) : Bool := ps.all fun p => (p.covers x).toOption == some true

theorem holds_snoc (ps : List Predicate) (p : Predicate) (x : List ℚ) :
    holds (ps ++ [p]) x = (holds ps x && ((p.covers x).toOption == some true)) := by
  simp [holds]

theorem toOption_iff (e : Except PyErr Bool) : (e.toOption == some true) = true ↔ e = .ok true := by
  cases e with
  | error e => simp [Except.toOption]
  | ok b => simp [Except.toOption]

/-- Every branch has a rule, which covers exactly the instances sent down the branch. -/
theorem Test.rule_spec {n k : Nat} {t : Test} (h : t.Ok n k) (x : List ℚ) (hx : x.length = n) (b : Nat)
    (hb : b < k) : ∃ p, t.rule (b : Int) = .ok p ∧ (p.covers x = .ok true ↔ t.branch x = .ok (b : Int)) := by
  cases t with
  | num t =>
    obtain ⟨h1, h2, rfl⟩ := h
    exact ⟨_, rfl, ((C36_numeric t x h1 (by omega)).2 b (by omega)).symm⟩
  | nom t =>
    obtain ⟨h1, h2, rfl⟩ := h
    exact ⟨_, rfl, ((C36_nominal_binary t x h1 (by omega)).2 b (by omega)).symm⟩
  | multi t =>
    obtain ⟨h1, h2, vals, hv, rfl⟩ := h
    obtain ⟨t', e, hr⟩ := C36_multiway_rule t.att vals hv.2.1 hv.2.2 [] x h1 (by omega)
    have : t' = t := by
      have : Except.ok (MultiTest.create t.att vals) = (Except.ok t' : Except PyErr MultiTest) := e
      rw [← hv.1, Except.ok.injEq] at this
      exact this.symm
    subst this
    have hrev : t'.rev.lookup b = vals[b]? := by
      rw [show t'.rev = (vals.zipIdx 0).map fun p => (p.2, p.1) from by rw [hv.1]; rfl, lookup_rev]
      simp
    have hp : t'.rule (b : Int) = .ok ⟨t'.att, .eq, vals[b]⟩ := by
      simp only [MultiTest.rule, Int.toNat_natCast, hrev]
      rw [if_neg (by omega), List.getElem?_eq_getElem hb]
    refine ⟨_, hp, ?_⟩
    constructor
    · intro hc
      exact (hr b).2 ⟨_, hp, hc⟩
    · intro hc
      obtain ⟨p, hp', hc'⟩ := (hr b).1 hc
      rw [hp, Except.ok.injEq] at hp'
      subst hp'
      exact hc'

mutual
/-- The leaf that instance `x` reaches. -/
def T.target (x : List ℚ) : T O → Option (Leaf O)
  | .leaf l => some l
  | .split t _ kids =>
    match t.branch x with
    | .error _ => none
    | .ok b => if b ≥ 0 then kids.target x b.toNat else none
/-- See `T.target`. -/
def F.target (x : List ℚ) : F O → Nat → Option (Leaf O)
  | .nil, _ => none
  | .cons j t rest, b => if b = j then t.target x else rest.target x b
end

mutual
theorem T.target_of_filter (x : List ℚ) (t : T O) (pre q : Path) (h : t.filter x pre = .ok (.node (pre ++ q))) :
    t.target x = (match t.get q with
      | some (.leaf l) => some l
      | _ => none) := by
  match t with
  | .leaf l =>
    rw [T.filter, Except.ok.injEq, Found.node.injEq] at h
    have : q = [] := by simpa using h.symm
    subst this
    rfl
  | .split t st kids =>
    rw [T.filter] at h
    rw [T.target]
    cases hb : t.branch x with
    | error e => rw [hb] at h; cases h
    | ok b =>
      rw [hb] at h
      simp only at h ⊢
      by_cases h0 : b ≥ 0
      · rw [if_pos h0] at h ⊢
        obtain ⟨q', rfl⟩ := F.filter_prefix x kids b.toNat pre q h
        rw [F.target_of_filter x kids b.toNat pre q' (by simpa using h), T.get]
      · rw [if_neg h0, Except.ok.injEq, Found.node.injEq] at h
        have : q = [] := by simpa using h.symm
        subst this
        rw [if_neg h0]
        rfl
theorem F.target_of_filter (x : List ℚ) (kids : F O) (b : Nat) (pre q : Path)
    (h : kids.filter x b pre = .ok (.node (pre ++ b :: q))) :
    kids.target x b = (match kids.get b q with
      | some (.leaf l) => some l
      | _ => none) := by
  match kids with
  | .nil => rw [F.filter] at h; cases h
  | .cons j t rest =>
    rw [F.filter] at h
    rw [F.target, F.get]
    by_cases e : b = j
    · rw [if_pos e] at h ⊢
      rw [if_pos e]
      exact T.target_of_filter x t (pre ++ [b]) q (by simpa using h)
    · rw [if_neg e] at h ⊢
      rw [if_neg e]
      exact F.target_of_filter x rest b pre q h
theorem T.filter_prefix (x : List ℚ) (t : T O) (pre p : Path) (h : t.filter x pre = .ok (.node p)) :
    ∃ q, p = pre ++ q := by
  match t with
  | .leaf l =>
    rw [T.filter, Except.ok.injEq, Found.node.injEq] at h
    exact ⟨[], by simp [h]⟩
  | .split t st kids =>
    rw [T.filter] at h
    cases hb : t.branch x with
    | error e => rw [hb] at h; cases h
    | ok b =>
      rw [hb] at h
      simp only at h
      by_cases h0 : b ≥ 0
      · rw [if_pos h0] at h
        obtain ⟨q, rfl⟩ := F.filter_prefix' x kids b.toNat pre p h
        exact ⟨_, rfl⟩
      · rw [if_neg h0, Except.ok.injEq, Found.node.injEq] at h
        exact ⟨[], by simp [h]⟩
theorem F.filter_prefix' (x : List ℚ) (kids : F O) (b : Nat) (pre p : Path)
    (h : kids.filter x b pre = .ok (.node p)) : ∃ q, p = pre ++ b :: q := by
  match kids with
  | .nil => rw [F.filter] at h; cases h
  | .cons j t rest =>
    rw [F.filter] at h
    by_cases e : b = j
    · rw [if_pos e] at h
      obtain ⟨q, rfl⟩ := T.filter_prefix x t (pre ++ [b]) p h
      exact ⟨q, by simp⟩
    · rw [if_neg e] at h
      exact F.filter_prefix' x rest b pre p h
theorem F.filter_prefix (x : List ℚ) (kids : F O) (b : Nat) (pre p : Path)
    (h : kids.filter x b pre = .ok (.node (pre ++ p))) : ∃ q, p = b :: q := by
  obtain ⟨q, e⟩ := F.filter_prefix' x kids b pre (pre ++ p) h
  exact ⟨q, by simpa using e⟩
end

/-- The rules covering an instance. -/
def covering (rs : List (List Predicate × Stats × Int)) (x : List ℚ) : List (List Predicate × Stats × Int) :=
  rs.filter fun r => holds r.1 x

mutual
theorem T.rules_spec (n : Nat) (t : T O) (h : t.WF n) (hne : ∀ l ∈ t.leaves, l.stats ≠ []) (ps : List Predicate) :
    ∃ rs, t.rules ps = .ok rs ∧ rs.map (fun r => r.2.1) = t.leaves.map Leaf.stats ∧
      (∀ r ∈ rs, IsWinner r.2.1 r.2.2) ∧
      ∀ x : List ℚ, x.length = n → (covering rs x).map (fun r => r.2.1) =
        if holds ps x then ((t.target x).map Leaf.stats).toList else [] := by
  match t with
  | .leaf l =>
    have hl : l.stats ≠ [] := hne l (by simp [T.leaves])
    cases hk : maxKey l.stats with
    | none =>
      cases hs : l.stats with
      | nil => exact absurd hs hl
      | cons a s => rw [hs] at hk; cases hk
    | some k =>
      refine ⟨[(ps, l.stats, k)], by rw [T.rules, hk], by simp [T.leaves], ?_, ?_⟩
      · intro r hr
        rw [List.mem_singleton] at hr
        subst hr
        exact (maxKey_iff _ _).1 hk
      · intro x _
        rw [T.target, covering]
        by_cases hp : holds ps x = true
        · simp [hp]
        · simp [hp]
  | .split t st kids =>
    obtain ⟨k, h1, h2⟩ := h
    obtain ⟨rs, r1, r2, r3, r4⟩ := F.rules_spec n t k h1 kids 0 h2 (by simpa [T.leaves] using hne) ps
    refine ⟨rs, by rw [T.rules, r1], by rw [r2, T.leaves], r3, ?_⟩
    intro x hx
    rw [r4 x hx, T.target]
    rcases Test.branch_ok h1 x hx with ⟨b, _, e⟩ | ⟨m, _, e⟩
    · simp [e]
    · simp [e]
theorem F.rules_spec (n : Nat) (t : Test) (k : Nat) (ht : t.Ok n k) (kids : F O) (i : Nat)
    (h : kids.WFfrom n i k) (hne : ∀ l ∈ kids.leaves, l.stats ≠ []) (ps : List Predicate) :
    ∃ rs, kids.rules t ps = .ok rs ∧ rs.map (fun r => r.2.1) = kids.leaves.map Leaf.stats ∧
      (∀ r ∈ rs, IsWinner r.2.1 r.2.2) ∧
      ∀ x : List ℚ, x.length = n → (covering rs x).map (fun r => r.2.1) =
        if holds ps x then (match t.branch x with
          | .ok b => if b ≥ i then ((kids.target x b.toNat).map Leaf.stats).toList else []
          | .error _ => []) else [] := by
  match kids with
  | .nil =>
    refine ⟨[], rfl, by simp [F.leaves], by simp, ?_⟩
    intro x hx
    rcases Test.branch_ok ht x hx with ⟨b, hb, e⟩ | ⟨m, _, e⟩
    · simp [e, covering, F.target]
    · simp [e, covering, F.target]
  | .cons j s rest =>
    obtain ⟨rfl, hs, hr⟩ := h
    have hjk : j < k := by
      have := F.WFfrom_le n rest (j + 1) k hr
      omega
    have hp0 : ∃ p, t.rule (j : Int) = .ok p ∧ ∀ x : List ℚ, x.length = n →
        (p.covers x = .ok true ↔ t.branch x = .ok (j : Int)) := by
      obtain ⟨p, hp, _⟩ := Test.rule_spec ht (List.replicate n 0) (by simp) j hjk
      refine ⟨p, hp, fun x hx => ?_⟩
      obtain ⟨p', hp', hc⟩ := Test.rule_spec ht x hx j hjk
      rw [hp, Except.ok.injEq] at hp'
      subst hp'
      exact hc
    obtain ⟨p, hp, hc⟩ := hp0
    obtain ⟨a, a1, a2, a3, a4⟩ := T.rules_spec n s hs
      (fun l hl => hne l (by simp [F.leaves, hl])) (ps ++ [p])
    obtain ⟨c, c1, c2, c3, c4⟩ := F.rules_spec n t k ht rest (j + 1) hr
      (fun l hl => hne l (by simp [F.leaves, hl])) ps
    refine ⟨a ++ c, by simp only [F.rules, hp, a1, c1], by simp [F.leaves, a2, c2], ?_, ?_⟩
    · intro r hr
      rcases List.mem_append.1 hr with hr | hr
      · exact a3 r hr
      · exact c3 r hr
    · intro x hx
      have hcov : covering (a ++ c) x = covering a x ++ covering c x := by simp [covering]
      rw [hcov, List.map_append, a4 x hx, c4 x hx, holds_snoc]
      by_cases hps : holds ps x = true
      · rcases Test.branch_ok ht x hx with ⟨b, hb, e⟩ | ⟨m, _, e⟩
        · by_cases hbj : b = j
          · subst hbj
            have h1 := (toOption_iff _).2 ((hc x hx).2 e)
            have h2 : ¬ ((b : Int) ≥ ((b + 1 : Nat) : Int)) := by omega
            simp [hps, h1, e, F.target]
          · have h1 : ((p.covers x).toOption == some true) = false := by
              rw [Bool.eq_false_iff]
              intro hh
              have := (hc x hx).1 ((toOption_iff _).1 hh)
              rw [e, Except.ok.injEq] at this
              omega
            simp only [hps, h1, e, Bool.and_false, if_true, List.nil_append, F.target, Int.toNat_natCast]
            rw [if_neg hbj]
            by_cases hge : ((b : Int) ≥ ((j + 1 : Nat) : Int))
            · have hge' : (b : Int) ≥ (j : Int) := by omega
              simp only [if_pos hge, if_pos hge']
              simp
            · have hge' : ¬ (b : Int) ≥ (j : Int) := by omega
              simp only [if_neg hge, if_neg hge']
              simp
        · have h1 : ((p.covers x).toOption == some true) = false := by
            rw [Bool.eq_false_iff]
            intro hh
            have := (hc x hx).1 ((toOption_iff _).1 hh)
            rw [e, Except.ok.injEq] at this
            omega
          have h2 : ¬ ((-1 : Int) ≥ ((j + 1 : Nat) : Int)) := by omega
          have h3 : ¬ ((-1 : Int) ≥ (j : Int)) := by omega
          simp only [hps, h1, e, Bool.and_false, if_true, if_neg h2, if_neg h3]
          simp
      · simp [hps]
theorem F.WFfrom_le (n : Nat) (kids : F O) (i k : Nat) (h : kids.WFfrom n i k) : i ≤ k := by
  match kids with
  | .nil => exact le_of_eq h
  | .cons j t rest =>
    obtain ⟨_, _, hr⟩ := h
    have := F.WFfrom_le n rest (i + 1) k hr
    omega
end

/-- **C127, partial.** When every leaf has seen an instance: one rule per leaf, in
order, with the class weights of the leaf and its majority class, and each instance
that reaches a leaf is covered by exactly one rule, the one of its leaf; an instance
that reaches no leaf (unseen value of a multiway split) is covered by none. -/
theorem C127_rules_partial (n : Nat) (r : T O) (h : r.WF n) (hne : ∀ l ∈ r.leaves, l.stats ≠ []) :
    ∃ rs, modelRules (some r) = .ok rs ∧ rs.map (fun q => q.2.1) = r.leaves.map Leaf.stats ∧
      (∀ q ∈ rs, IsWinner q.2.1 q.2.2) ∧
      ∀ x : List ℚ, x.length = n → ∃ p, r.filter x [] = .ok (.node p) ∧
        (∀ l, r.get p = some (.leaf l) → ∃ ps k, covering rs x = [(ps, l.stats, k)] ∧ IsWinner l.stats k) ∧
        ((∀ l, r.get p ≠ some (.leaf l)) → covering rs x = []) := by
  obtain ⟨rs, r1, r2, r3, r4⟩ := T.rules_spec n r h hne []
  refine ⟨rs, r1, r2, r3, fun x hx => ?_⟩
  obtain ⟨p, s, f1, f2, _, f4⟩ := T.filter_ok n x hx r h []
  have ht := T.target_of_filter x r [] p f1
  rw [List.nil_append] at f1
  have hcov := r4 x hx
  rw [show holds [] x = true from rfl, if_pos rfl] at hcov
  refine ⟨p, f1, fun l hl => ?_, fun hno => ?_⟩
  · rw [ht, hl] at hcov
    simp only [Option.map_some, Option.toList_some] at hcov
    obtain ⟨q, hq, e⟩ := List.map_eq_singleton_iff.1 hcov
    have hmem : q ∈ rs := by
      have : q ∈ covering rs x := by rw [hq]; simp
      exact List.mem_of_mem_filter this
    have := r3 q hmem
    obtain ⟨ps, st, k⟩ := q
    simp only at e this
    subst e
    exact ⟨ps, k, hq, this⟩
  · rw [ht, f2] at hcov
    cases s with
    | leaf l => exact absurd f2 (hno l)
    | split t st kids => simpa using hcov

/-- **C127, violated.** The rules of a tree that has not been trained cannot be listed. -/
theorem C127_untrained_violated : modelRules (none : Option (T O)) = .error .attributeError := rfl

/-- **C127, violated.** One leaf that has seen no instance makes the whole call fail:
here the first leaf after a split. -/
theorem C127_empty_leaf_violated (t : NumTest) (st : Stats) (l : Leaf O) (hl : l.stats = []) (rest : F O) :
    modelRules (some (.split (.num t) st (.cons 0 (.leaf l) rest))) = .error .valueError := by
  simp [modelRules, T.rules, F.rules, Test.rule, hl, maxKey]

/-- **C127, violated.** Such a leaf arises in training: a split that sends all the
weight of the leaf to one side leaves the other side empty until an instance reaches
it, and `get_model_rules` fails until then. -/
theorem C127_after_split_violated : ∃ (es : List (Ev Unit)) (r : T Unit), (∀ e ∈ es, e.Ok 1) ∧
    run (demoCfg .mc) none es = .ok (some r) ∧ modelRules (some r) = .error .valueError := by
  refine ⟨[demoEv 0 0 [], demoEv 0 1 []], ?_⟩
  cases h : run (demoCfg .mc) none [demoEv 0 0 [], demoEv 0 1 []] with
  | error e =>
    have : (run (demoCfg .mc) none [demoEv 0 0 [], demoEv 0 1 []]).toOption.isSome = true := by decide +kernel
    rw [h] at this; cases this
  | ok o =>
    have h2 : ((run (demoCfg .mc) none [demoEv 0 0 [], demoEv 0 1 []]).toOption.bind id).map
        (fun r => match modelRules (some r) with
          | .error .valueError => true
          | _ => false) = some true := by decide +kernel
    rw [h] at h2
    cases o with
    | none => simp [Except.toOption] at h2
    | some r =>
      refine ⟨r, ?_, rfl, ?_⟩
      · intro e he
        rcases List.mem_cons.1 he with rfl | he
        · exact ⟨rfl, fun l => by simp [demoEv, Choice.Ok, Test.Ok]⟩
        · rw [List.mem_singleton] at he
          subst he
          exact ⟨rfl, fun l => by simp [demoEv, Choice.Ok, Test.Ok]⟩
      · simp only [Except.toOption, Option.bind_some, id, Option.map_some, Option.some.injEq] at h2
        cases hm : modelRules (some r) with
        | ok v => rw [hm] at h2; simp at h2
        | error e =>
          rw [hm] at h2
          cases e <;> simp at h2
          rfl

/-- After three instances the demo tree has two rules. -/
example : ((run (demoCfg .mc) none [demoEv 0 0 [], demoEv 0 1 [], demoEv 1 1 []]).toOption.bind fun r =>
    (modelRules r).toOption.map fun rs => rs.map fun q => (q.2, holds q.1 [0], holds q.1 [1])) =
    some [(([(0, 1), (1, 1)], 0), true, false), (([(1, 1)], 1), false, true)] := by decide +kernel

/-- Predictions of that tree, with and without `classes`. -/
example : ((run (demoCfg .mc) none [demoEv 0 0 [], demoEv 0 1 [], demoEv 1 1 []]).toOption.bind fun r =>
    (predict (demoCfg .mc) r none [[0], [1]]).toOption) = some [0, 1] := by decide +kernel

example : ((run (demoCfg .mc) none [demoEv 0 0 [], demoEv 0 1 [], demoEv 1 1 []]).toOption.bind fun r =>
    (proba (demoCfg .mc) r (some [0, 1, 2]) [[0], [1]]).toOption) = some [[1/2, 1/2, 0], [0, 1, 0]] := by
  decide +kernel

/-- Rows of different length: padded in a batch without `classes`. -/
example :
    let root : Option (T Unit) := some (.split (.num ⟨0, 0, true⟩) [] (.cons 0 (.leaf (newLeaf (demoCfg .mc) true [(0, 2)]))
      (.cons 1 (.leaf (newLeaf (demoCfg .mc) true [(0, 1), (2, 1)])) .nil)))
    (proba (demoCfg .mc) root none [[-1]]).toOption = some [[1]] ∧
    (proba (demoCfg .mc) root none [[1]]).toOption = some [[1/2, 0, 1/2]] ∧
    (proba (demoCfg .mc) root none [[-1], [1]]).toOption = some [[1, 0, 0], [1/2, 0, 1/2]] := by
  decide +kernel

/-- The hypotheses of `C126_predict_row_partial` are met. -/
example : IsTop (some [0, 1, 2]) [(0, 1), (1, 3)] 2 ∧ IsTop none [(0, 1), (1, 3)] 1 := by
  simp [IsTop]

end Verif.Trees.HL
