import Verif.Rules.Props
import Mathlib.Data.List.GetD

/-!
C113: how the votes of the rules that fire are combined (`first_hit`, `weighted_max`,
`weighted_sum`) and turned into probabilities.
-/

namespace Verif.Rules

variable {O D K : Type}

/-! ### Specification -/

/-- The vote for class `c`: 0 if the dictionary has no such key. -/
def vote (v : SDict Nat ℚ) (c : Nat) : ℚ := (v.get? c).getD 0

/-- The sum of all votes. -/
def total (v : SDict Nat ℚ) : ℚ := (v.map Prod.snd).sum

/-- The keys of a dictionary are distinct. -/
def Keys (v : SDict Nat ℚ) : Prop := (v.map Prod.fst).Nodup

/-- The share of the `i`-th of `n` rules that fire in `weighted_sum`. -/
def share (n i : Nat) : ℚ := if i = 0 then 1 / 2 ^ (n - 1) else 1 / 2 ^ (n - i)

/-! ### Dictionaries -/

theorem vote_cons (k : Nat) (q : ℚ) (v : SDict Nat ℚ) (c : Nat) :
    vote ((k, q) :: v) c = if c = k then q else vote v c := by
  unfold vote
  rw [SDict.get?]
  by_cases h : c = k <;> simp [h]

theorem get?_isNone (v : SDict Nat ℚ) (c : Nat) : (v.get? c).isNone = true ↔ c ∉ v.map Prod.fst := by
  induction v with
  | nil => simp [SDict.get?]
  | cons p v ih =>
    obtain ⟨k, q⟩ := p
    unfold SDict.get?
    by_cases h : c = k
    · simp [h]
    · rw [if_neg h, ih]; simp [h]

theorem vote_of_not_mem (v : SDict Nat ℚ) (c : Nat) (h : c ∉ v.map Prod.fst) : vote v c = 0 := by
  have := (get?_isNone v c).mpr h
  unfold vote
  cases hg : v.get? c with
  | none => rfl
  | some q => rw [hg] at this; cases this

theorem vote_map_div (v : SDict Nat ℚ) (t : ℚ) (c : Nat) :
    vote (v.map fun p => (p.1, p.2 / t)) c = vote v c / t := by
  induction v with
  | nil => simp [vote, SDict.get?]
  | cons p v ih =>
    obtain ⟨k, q⟩ := p
    rw [List.map_cons, vote_cons, vote_cons, ih]
    split <;> rfl

theorem total_map_div (v : SDict Nat ℚ) (t : ℚ) : total (v.map fun p => (p.1, p.2 / t)) = total v / t := by
  unfold total
  induction v with
  | nil => simp
  | cons p v ih => simp only [List.map_cons, List.sum_cons, ih]; ring

theorem vote_norm (v : SDict Nat ℚ) (h : total v ≠ 0) (c : Nat) : vote (normVotes v) c = vote v c / total v := by
  unfold normVotes
  simp only
  rw [if_pos (show (v.map Prod.snd).sum ≠ 0 from h)]
  exact vote_map_div v _ c

theorem total_norm (v : SDict Nat ℚ) (h : total v ≠ 0) : total (normVotes v) = 1 := by
  unfold normVotes
  simp only
  rw [if_pos (show (v.map Prod.snd).sum ≠ 0 from h), total_map_div]
  exact div_self h

theorem keys_norm (v : SDict Nat ℚ) : (normVotes v).map Prod.fst = v.map Prod.fst := by
  unfold normVotes
  simp only
  split
  · simp [List.map_map, Function.comp_def]
  · rfl

theorem vote_add (a b : SDict Nat ℚ) (c : Nat) : vote (addVotes a b) c = vote a c + vote b c := by
  have hfilter : ∀ (l : SDict Nat ℚ) (p : Nat → Bool),
      vote (l.filter fun q => p q.1) c = if p c then vote l c else 0 := by
    intro l p
    induction l with
    | nil => simp [vote, SDict.get?]
    | cons q l ih =>
      obtain ⟨k, w⟩ := q
      rw [List.filter_cons, vote_cons]
      by_cases hk : p k = true
      · simp only [hk, if_true, vote_cons, ih]
        by_cases hc : c = k
        · subst hc; simp [hk]
        · simp [hc]
      · simp only [hk, if_false, ih, Bool.false_eq_true]
        by_cases hc : c = k
        · subst hc; simp [hk]
        · simp [hc]
  have happ : ∀ (l m : SDict Nat ℚ), vote (l ++ m) c = if c ∈ l.map Prod.fst then vote l c else vote m c := by
    intro l m
    induction l with
    | nil => simp
    | cons q l ih =>
      obtain ⟨k, w⟩ := q
      rw [List.cons_append, vote_cons, vote_cons, ih]
      by_cases hc : c = k
      · simp [hc]
      · simp only [if_neg hc, List.map_cons, List.mem_cons, hc, false_or, if_false]
  have hmap : ∀ (l : SDict Nat ℚ), c ∈ l.map Prod.fst →
      vote (l.map fun p => (p.1, p.2 + vote b p.1)) c = vote l c + vote b c := by
    intro l
    induction l with
    | nil => simp
    | cons q l ih =>
      obtain ⟨k, w⟩ := q
      intro hm
      rw [List.map_cons, vote_cons, vote_cons]
      by_cases hc : c = k
      · simp [hc]
      · rw [if_neg hc, if_neg hc]
        exact ih (by simpa [hc] using hm)
  unfold addVotes
  rw [happ, hfilter b fun k => (a.get? k).isNone]
  have hkeys : (a.map fun p => (p.1, p.2 + (b.get? p.1).getD 0)).map Prod.fst = a.map Prod.fst := by
    simp [List.map_map, Function.comp_def]
  rw [hkeys]
  by_cases hm : c ∈ a.map Prod.fst
  · rw [if_pos hm]; exact hmap a hm
  · rw [if_neg hm, vote_of_not_mem a c hm, if_pos ((get?_isNone a c).mpr hm), zero_add]

theorem sum_vote (a b : SDict Nat ℚ) (ha : Keys a) (hb : Keys b) :
    (a.map fun p => vote b p.1).sum + total (b.filter fun p => (a.get? p.1).isNone) = total b := by
  induction b with
  | nil => simp [vote, SDict.get?, total]
  | cons q b ih =>
    obtain ⟨k, w⟩ := q
    unfold Keys at hb
    rw [List.map_cons, List.nodup_cons] at hb
    obtain ⟨h1, h2⟩ := hb
    have hk := vote_of_not_mem b k h1
    have hsum : ∀ l : SDict Nat ℚ, Keys l → (l.map fun p => vote ((k, w) :: b) p.1).sum =
        (l.map fun p => vote b p.1).sum + if k ∈ l.map Prod.fst then w else 0 := by
      intro l
      induction l with
      | nil => simp
      | cons p l ihl =>
        intro hl
        unfold Keys at hl
        rw [List.map_cons, List.nodup_cons] at hl
        rw [List.map_cons, List.sum_cons, List.map_cons, List.sum_cons, ihl hl.2, vote_cons]
        by_cases hp : p.1 = k
        · have hn : k ∉ l.map Prod.fst := hp ▸ hl.1
          rw [if_pos hp, if_neg hn, if_pos (by simp [hp]), hp, hk]; ring
        · rw [if_neg hp]
          by_cases hm : k ∈ l.map Prod.fst
          · rw [if_pos hm, if_pos (by rw [List.map_cons]; exact List.mem_cons_of_mem _ hm)]; ring
          · rw [if_neg hm, if_neg (by rw [List.map_cons, List.mem_cons]; rintro (h | h); exact hp h.symm; exact hm h)]
            ring
    rw [hsum a ha, List.filter_cons]
    have ih' := ih h2
    by_cases hm : k ∈ a.map Prod.fst
    · have : (a.get? k).isNone = false := by
        by_contra hh
        rw [Bool.not_eq_false] at hh
        exact (get?_isNone a k).mp hh hm
      simp only [this, Bool.false_eq_true, if_false, if_pos hm]
      have ht : total ((k, w) :: b) = w + total b := by simp [total]
      rw [ht]; linarith
    · have : (a.get? k).isNone = true := (get?_isNone a k).mpr hm
      simp only [this, if_true, if_neg hm, add_zero]
      have ht : ∀ l : SDict Nat ℚ, total ((k, w) :: l) = w + total l := fun l => by simp [total]
      rw [ht, ht]; linarith

theorem total_add (a b : SDict Nat ℚ) (ha : Keys a) (hb : Keys b) :
    total (addVotes a b) = total a + total b := by
  rw [← sum_vote a b ha hb]
  unfold addVotes
  have : ∀ l m : SDict Nat ℚ, total (l ++ m) = total l + total m := fun l m => by
    unfold total; rw [List.map_append, List.sum_append]
  rw [this]
  have h2 : ∀ l : SDict Nat ℚ, total (l.map fun p => (p.1, p.2 + (b.get? p.1).getD 0)) =
      total l + (l.map fun p => vote b p.1).sum := by
    intro l
    induction l with
    | nil => simp [total]
    | cons p l ih =>
      have ht : ∀ (q : Nat × ℚ) (l : SDict Nat ℚ), total (q :: l) = q.2 + total l := fun q l => by simp [total]
      rw [List.map_cons, ht, ht, ih, List.map_cons, List.sum_cons]
      show p.2 + vote b p.1 + _ = _
      ring
  rw [h2]; ring

theorem keys_add (a b : SDict Nat ℚ) (ha : Keys a) (hb : Keys b) : Keys (addVotes a b) := by
  unfold Keys addVotes
  rw [List.map_append, List.nodup_append]
  refine ⟨?_, ?_, ?_⟩
  · have : (a.map fun p => (p.1, p.2 + (b.get? p.1).getD 0)).map Prod.fst = a.map Prod.fst := by
      simp [List.map_map, Function.comp_def]
    rw [this]; exact ha
  · exact List.Nodup.sublist (List.Sublist.map _ List.filter_sublist) hb
  · intro x hx y hy hxy
    subst hxy
    obtain ⟨p, hp, rfl⟩ := List.mem_map.mp hy
    have := (List.mem_filter.mp hp).2
    refine (get?_isNone a p.1).mp this ?_
    simpa [List.map_map, Function.comp_def] using hx

/-! ### The three ways of combining votes -/

/-- C113: with `first_hit` the votes are those of the first rule that fires, or of the
default rule if none does. -/
theorem C113_first_hit (E : Env O D K) (hm : E.ordered = true ∨ E.mode = .firstHit) (s : St O D) (x : Nat → ℚ) :
    (∀ pre r post, s.rules = pre ++ r :: post → (∀ p ∈ pre, p.covers x = false) → r.covers x = true →
      votesFor E s x = r.votes E x) ∧
    ((∀ r ∈ s.rules, r.covers x = false) → votesFor E s x = s.default.votes E x) := by
  have hv : votesFor E s x = firstHit E s x := by
    unfold votesFor
    rcases hm with h | h
    · rw [h]; rfl
    · rw [h]; simp
  rw [hv]
  unfold firstHit
  constructor
  · intro pre r post hs hpre hr
    have : s.rules.find? (fun r => r.covers x) = some r := by
      rw [hs, List.find?_append, List.find?_eq_none.mpr (by intro p hp; simp [hpre p hp])]
      simp [hr]
    rw [this]
  · intro h
    rw [List.find?_eq_none.mpr (by intro p hp; simp [h p hp])]

/-- The inner loop of `weighted_max`. -/
theorem inner_max (v : SDict Nat ℚ) (l : SDict Nat ℚ) (a : ℚ × SDict Nat ℚ) :
    let b := l.foldl (fun (a : ℚ × SDict Nat ℚ) p => if p.2 ≥ a.1 then (p.2, v) else a) a
    a.1 ≤ b.1 ∧ (∀ p ∈ l, p.2 ≤ b.1) ∧
      (b = a ∧ (∀ p ∈ l, p.2 < a.1) ∨ b.2 = v ∧ ∃ p ∈ l, p.2 = b.1) := by
  induction l generalizing a with
  | nil => simp
  | cons q l ih =>
    simp only [List.foldl_cons]
    by_cases h : q.2 ≥ a.1
    · rw [if_pos h]
      obtain ⟨i1, i2, i3⟩ := ih (q.2, v)
      simp only at i1 i2 i3
      refine ⟨le_trans h i1, ?_, .inr ?_⟩
      · intro p hp
        rcases List.mem_cons.mp hp with rfl | hp
        · exact i1
        · exact i2 p hp
      · rcases i3 with ⟨e, _⟩ | ⟨e, p, hp, he⟩
        · rw [e]; exact ⟨rfl, q, by simp, rfl⟩
        · exact ⟨e, p, by simp [hp], he⟩
    · rw [if_neg h]
      obtain ⟨i1, i2, i3⟩ := ih a
      refine ⟨i1, ?_, ?_⟩
      · intro p hp
        rcases List.mem_cons.mp hp with rfl | hp
        · exact le_trans (le_of_lt (not_le.mp h)) i1
        · exact i2 p hp
      · rcases i3 with ⟨e, hlt⟩ | ⟨e, p, hp, he⟩
        · refine .inl ⟨e, ?_⟩
          intro p hp
          rcases List.mem_cons.mp hp with rfl | hp
          · exact not_le.mp h
          · exact hlt p hp
        · exact .inr ⟨e, p, by simp [hp], he⟩

/-- C113: with `weighted_max` the result is the normalised votes of a rule that fires and
that holds the largest normalised vote of all rules that fire; of several, the last. -/
theorem C113_weighted_max (E : Env O D K) (ho : E.ordered = false) (hm : E.mode = .weightedMax) (s : St O D)
    (x : Nat → ℚ) :
    ((∀ r ∈ s.rules, r.covers x = false) → votesFor E s x = s.default.votes E x) ∧
    ((∃ r ∈ s.rules, r.covers x = true) →
      (∀ r ∈ s.rules, r.covers x = true → r.votes E x ≠ [] ∧ ∀ p ∈ normVotes (r.votes E x), 0 ≤ p.2) →
      ∃ pre r post, s.rules = pre ++ r :: post ∧ r.covers x = true ∧
        votesFor E s x = normVotes (r.votes E x) ∧
        ∃ p ∈ normVotes (r.votes E x),
          (∀ r' ∈ s.rules, r'.covers x = true → ∀ q ∈ normVotes (r'.votes E x), q.2 ≤ p.2) ∧
          ∀ r' ∈ post, r'.covers x = true → ∀ q ∈ normVotes (r'.votes E x), q.2 < p.2) := by
  have hv : votesFor E s x = weightedMax E s x := by
    unfold votesFor; rw [ho, hm]; rfl
  rw [hv]
  constructor
  · intro h
    unfold weightedMax
    rw [List.filter_eq_nil_iff.mpr (by intro r hr; simp [h r hr])]
    rfl
  · intro hex hnn
    set step := fun (a : ℚ × SDict Nat ℚ) (r : Rule O D) =>
      (normVotes (r.votes E x)).foldl (fun (a : ℚ × SDict Nat ℚ) p =>
        if p.2 ≥ a.1 then (p.2, normVotes (r.votes E x)) else a) a with hstep
    have key : ∀ rules : List (Rule O D),
        (∀ r ∈ rules, r.covers x = true → r.votes E x ≠ [] ∧ ∀ p ∈ normVotes (r.votes E x), 0 ≤ p.2) →
        let b := (rules.filter fun r => r.covers x).foldl step (0, s.default.votes E x)
        0 ≤ b.1 ∧
        ((∃ r ∈ rules, r.covers x = true) →
        ∃ pre r post, rules = pre ++ r :: post ∧ r.covers x = true ∧ b.2 = normVotes (r.votes E x) ∧
          ∃ p ∈ normVotes (r.votes E x), p.2 = b.1 ∧
            (∀ r' ∈ rules, r'.covers x = true → ∀ q ∈ normVotes (r'.votes E x), q.2 ≤ p.2) ∧
            ∀ r' ∈ post, r'.covers x = true → ∀ q ∈ normVotes (r'.votes E x), q.2 < p.2) := by
      intro rules
      induction rules using List.reverseRecOn with
      | nil => intro _; simp
      | append_singleton rules r ih =>
        intro hall
        obtain ⟨b0, hb⟩ := ih (fun r' hr' => hall r' (by simp [hr']))
        by_cases hr : r.covers x = true
        · have hf : (rules ++ [r]).filter (fun r => r.covers x) = rules.filter (fun r => r.covers x) ++ [r] := by
            simp [List.filter_append, hr]
          rw [hf, List.foldl_append, List.foldl_cons, List.foldl_nil]
          set b := (rules.filter fun r => r.covers x).foldl step (0, s.default.votes E x) with hbdef
          obtain ⟨i1, i2, i3⟩ := inner_max (normVotes (r.votes E x)) (normVotes (r.votes E x)) b
          refine ⟨le_trans b0 i1, fun _ => ?_⟩
          rcases i3 with ⟨e, hlt⟩ | ⟨e, p, hp, he⟩
          · have e : step b r = b := e
            -- some earlier rule fired, otherwise the threshold would still be 0
            have hfired : ∃ r' ∈ rules, r'.covers x = true := by
              by_contra hno
              have hno' : rules.filter (fun r => r.covers x) = [] :=
                List.filter_eq_nil_iff.mpr fun r' hr' hc => hno ⟨r', hr', hc⟩
              have hb1 : b.1 = 0 := by rw [hbdef, hno']; rfl
              obtain ⟨hne, hpos⟩ := hall r (by simp) hr
              have hne' : normVotes (r.votes E x) ≠ [] := by
                intro h0
                have := keys_norm (r.votes E x)
                rw [h0] at this
                exact hne (by simpa using this.symm)
              obtain ⟨p, hp⟩ := List.exists_mem_of_ne_nil _ hne'
              have h1 := hlt p hp
              have h2 := hpos p hp
              rw [hb1] at h1
              exact absurd h2 (not_le.mpr h1)
            obtain ⟨pre, r0, post, h1, h2, h3, p, hp, h4, h5, h6⟩ := hb hfired
            refine ⟨pre, r0, post ++ [r], by rw [h1]; simp, h2, by rw [e]; exact h3, p, hp, by rw [e]; exact h4, ?_, ?_⟩
            · intro r' hr' hc q hq
              rcases List.mem_append.mp hr' with h | h
              · exact h5 r' h hc q hq
              · rw [List.mem_singleton.mp h] at hq
                rw [h4]; exact le_of_lt (hlt q hq)
            · intro r' hr' hc q hq
              rcases List.mem_append.mp hr' with h | h
              · exact h6 r' h hc q hq
              · rw [List.mem_singleton.mp h] at hq
                rw [h4]; exact hlt q hq
          · refine ⟨rules, r, [], by simp, hr, e, p, hp, he, ?_, by simp⟩
            intro r' hr' hc q hq
            rcases List.mem_append.mp hr' with h | h
            · obtain ⟨_, _, _, _, _, _, p', _, h4, h5, _⟩ := hb ⟨r', h, hc⟩
              have := h5 r' h hc q hq
              rw [he]
              exact le_trans this (h4 ▸ i1)
            · rw [List.mem_singleton.mp h] at hq
              rw [he]; exact i2 q hq
        · have hf : (rules ++ [r]).filter (fun r => r.covers x) = rules.filter (fun r => r.covers x) := by
            simp [List.filter_append, hr]
          rw [hf]
          refine ⟨b0, fun hex => ?_⟩
          have hex' : ∃ r ∈ rules, r.covers x = true := by
            obtain ⟨r', hr', hc⟩ := hex
            rcases List.mem_append.mp hr' with h | h
            · exact ⟨r', h, hc⟩
            · rw [List.mem_singleton.mp h] at hc; exact absurd hc hr
          obtain ⟨pre, r0, post, h1, h2, h3, p, hp, h4, h5, h6⟩ := hb hex'
          refine ⟨pre, r0, post ++ [r], by rw [h1]; simp, h2, h3, p, hp, h4, ?_, ?_⟩
          · intro r' hr' hc q hq
            rcases List.mem_append.mp hr' with h | h
            · exact h5 r' h hc q hq
            · rw [List.mem_singleton.mp h] at hc; exact absurd hc hr
          · intro r' hr' hc q hq
            rcases List.mem_append.mp hr' with h | h
            · exact h6 r' h hc q hq
            · rw [List.mem_singleton.mp h] at hc; exact absurd hc hr
    obtain ⟨pre, r0, post, h1, h2, h3, p, hp, h4, h5, h6⟩ := (key s.rules hnn).2 hex
    exact ⟨pre, r0, post, h1, h2, h3, p, hp, h5, h6⟩

/-! ### Weighted sum -/

theorem share_succ (n i : Nat) (hi : i < n) : share (n + 1) i = share n i / 2 := by
  unfold share
  by_cases h : i = 0
  · subst h
    rw [if_pos rfl, if_pos rfl, show n + 1 - 1 = (n - 1) + 1 by omega, pow_succ]
    field_simp
  · rw [if_neg h, if_neg h, show n + 1 - i = (n - i) + 1 by omega, pow_succ]
    field_simp

theorem share_last (n : Nat) (hn : n ≠ 0) : share (n + 1) n = 1 / 2 := by
  unfold share
  rw [if_neg hn, show n + 1 - n = 1 by omega, pow_one]

/-- C113: with `weighted_sum`, the rules that fire do not count the same: the vote for a
class is the sum of the normalised votes with shares `1/2^(n-1)`, `1/2^(n-1)`,
`1/2^(n-2)`, ..., `1/2`; the later a rule stands, the more it counts. -/
theorem C113_weighted_sum_partial (E : Env O D K) (ho : E.ordered = false) (hm : E.mode = .weightedSum) (s : St O D)
    (x : Nat → ℚ) (fired : List (Rule O D)) (hf : fired = s.rules.filter fun r => r.covers x) :
    (fired = [] → votesFor E s x = s.default.votes E x) ∧
    (fired ≠ [] → (∀ r ∈ fired, Keys (r.votes E x) ∧ total (r.votes E x) ≠ 0) →
      total (votesFor E s x) = 1 ∧ Keys (votesFor E s x) ∧
      ∀ c, vote (votesFor E s x) c =
        (fired.zipIdx.map fun p => share fired.length p.2 * (vote (p.1.votes E x) c / total (p.1.votes E x))).sum) := by
  have hv : votesFor E s x = weightedSum E s x := by
    unfold votesFor; rw [ho, hm]; rfl
  rw [hv]
  unfold weightedSum
  rw [← hf]
  constructor
  · intro h; rw [h]
  · intro hne hall
    have key : ∀ l : List (Rule O D), l ≠ [] → (∀ r ∈ l, Keys (r.votes E x) ∧ total (r.votes E x) ≠ 0) →
        let b := l.foldl (fun acc r => normVotes (addVotes acc (normVotes (r.votes E x)))) []
        total b = 1 ∧ Keys b ∧ ∀ c, vote b c =
          (l.zipIdx.map fun p => share l.length p.2 * (vote (p.1.votes E x) c / total (p.1.votes E x))).sum := by
      intro l
      induction l using List.reverseRecOn with
      | nil => intro h; exact absurd rfl h
      | append_singleton l r ih =>
        intro _ hall
        obtain ⟨hk, ht⟩ := hall r (by simp)
        have hkn : Keys (normVotes (r.votes E x)) := by unfold Keys; rw [keys_norm]; exact hk
        have htn := total_norm _ ht
        rw [List.foldl_append, List.foldl_cons, List.foldl_nil]
        by_cases hl : l = []
        · subst hl
          simp only [List.foldl_nil, List.nil_append]
          have hadd : addVotes [] (normVotes (r.votes E x)) = normVotes (r.votes E x) := by
            simp [addVotes, SDict.get?]
          rw [hadd]
          refine ⟨total_norm _ (by rw [htn]; norm_num), by unfold Keys; rw [keys_norm]; exact hkn, fun c => ?_⟩
          rw [vote_norm _ (by rw [htn]; norm_num), htn, vote_norm _ ht]
          simp [share]
        · obtain ⟨i1, i2, i3⟩ := ih hl (fun r' hr' => hall r' (by simp [hr']))
          set b := l.foldl (fun acc r => normVotes (addVotes acc (normVotes (r.votes E x)))) [] with hb
          have htot : total (addVotes b (normVotes (r.votes E x))) = 2 := by
            rw [total_add _ _ i2 hkn, htn, i1]; norm_num
          refine ⟨total_norm _ (by rw [htot]; norm_num), by unfold Keys; rw [keys_norm]; exact keys_add _ _ i2 hkn,
            fun c => ?_⟩
          rw [vote_norm _ (by rw [htot]; norm_num), htot, vote_add, i3, vote_norm _ ht, List.zipIdx_append,
            List.map_append, List.sum_append]
          have hn0 : l.length ≠ 0 := by simpa using hl
          have h1 : (l.zipIdx.map fun p => share (l ++ [r]).length p.2 *
              (vote (p.1.votes E x) c / total (p.1.votes E x))) =
              l.zipIdx.map fun p => share l.length p.2 * (vote (p.1.votes E x) c / total (p.1.votes E x)) / 2 := by
            apply List.map_congr_left
            intro p hp
            obtain ⟨_, h2, _⟩ := List.mem_zipIdx hp
            rw [List.length_append, List.length_singleton, share_succ _ _ (by simpa using h2)]
            ring
          have h2 : ∀ (m : List (Rule O D × Nat)) (f : Rule O D × Nat → ℚ),
              (m.map fun p => f p / 2).sum = (m.map f).sum / 2 := by
            intro m f
            induction m with
            | nil => simp
            | cons a m ihm => simp only [List.map_cons, List.sum_cons, ihm]; ring
          rw [h1, h2]
          simp only [List.zipIdx_cons, List.zipIdx_nil, List.map_cons, List.map_nil, List.sum_cons, List.sum_nil,
            add_zero, List.length_append, List.length_singleton, zero_add]
          rw [share_last _ hn0]
          ring
    have := key fired hne hall
    clear hf
    cases fired with
    | nil => exact absurd rfl hne
    | cons a l => exact this

/-! ### Probabilities -/

theorem fillRow_ok (v : SDict Nat ℚ) (row : List ℚ) (hk : Keys v) (h : ∀ p ∈ v, p.1 < row.length)
    (h0 : ∀ p ∈ v, row.getD p.1 0 = 0) :
    ∃ row', fillRow v row = .ok row' ∧ row'.length = row.length ∧ row'.sum = row.sum + total v ∧
      ∀ c, row'.getD c 0 = row.getD c 0 + vote v c := by
  induction v generalizing row with
  | nil => exact ⟨row, rfl, rfl, by simp [total], by simp [vote, SDict.get?]⟩
  | cons q v ih =>
    obtain ⟨k, w⟩ := q
    unfold Keys at hk
    rw [List.map_cons, List.nodup_cons] at hk
    obtain ⟨h1, h2⟩ := hk
    have hkl : k < row.length := h (k, w) (by simp)
    have hset : ∀ c, (row.set k w).getD c 0 = if c = k then w else row.getD c 0 := by
      intro c
      simp only [List.getD_eq_getElem?_getD, List.getElem?_set]
      by_cases hc : k = c
      · subst hc; simp [hkl]
      · simp [hc, Ne.symm hc]
    have hne : ∀ p ∈ v, p.1 ≠ k := by
      rintro p hp rfl
      exact h1 (List.mem_map.mpr ⟨p, hp, rfl⟩)
    obtain ⟨row', e, el, es, eg⟩ := ih (row.set k w) h2 (fun p hp => by
        rw [List.length_set]; exact h p (by simp [hp])) (fun p hp => by
        rw [hset, if_neg (hne p hp)]; exact h0 p (by simp [hp]))
    refine ⟨row', ?_, ?_, ?_, ?_⟩
    · unfold fillRow; rw [if_pos hkl]; exact e
    · rw [el, List.length_set]
    · rw [es]
      have hs : ∀ (l : List ℚ) (k : Nat), k < l.length → l.getD k 0 = 0 → (l.set k w).sum = l.sum + w := by
        intro l
        induction l with
        | nil => intro k hk; simp at hk
        | cons a l ihl =>
          intro k hk hz
          cases k with
          | zero => simp only [List.getD_cons_zero] at hz; simp [hz, add_comm]
          | succ k =>
            simp only [List.getD_cons_succ] at hz
            simp only [List.length_cons] at hk
            rw [List.set_cons_succ, List.sum_cons, List.sum_cons, ihl k (by omega) hz]; ring
      rw [hs row k hkl (h0 (k, w) (by simp))]
      simp [total]; ring
    · intro c
      rw [eg, hset, vote_cons]
      by_cases hc : c = k
      · subst hc
        rw [if_pos rfl, if_pos rfl, vote_of_not_mem v c h1]
        have := h0 (c, w) (by simp)
        simp only at this
        rw [this]; ring
      · rw [if_neg hc, if_neg hc]

theorem le_foldl_max (l : List Nat) (a : Nat) : a ≤ l.foldl max a ∧ ∀ k ∈ l, k ≤ l.foldl max a := by
  induction l generalizing a with
  | nil => simp
  | cons b l ih =>
    obtain ⟨h1, h2⟩ := ih (max a b)
    refine ⟨le_trans (le_max_left _ _) h1, fun k hk => ?_⟩
    rcases List.mem_cons.mp hk with rfl | hk
    · exact le_trans (le_max_right _ _) h1
    · exact h2 k hk

/-- C113: the probabilities are the votes divided by their sum, one entry per class
up to the largest label; they sum to 1. -/
theorem C113_probabilities (E : Env O D K) (classes : Option (List Nat)) (s : St O D) (x : Nat → ℚ)
    (hk : Keys (votesFor E s x)) (ht : total (votesFor E s x) ≠ 0)
    (hc : ∀ cs, classes = some cs → ∀ p ∈ votesFor E s x, p.1 ∈ cs) :
    ∃ row, probaRow E classes s x = .ok row ∧ row.sum = 1 ∧
      ∀ c, row.getD c 0 = vote (votesFor E s x) c / total (votesFor E s x) := by
  have hne : votesFor E s x ≠ [] := by intro h; rw [h] at ht; simp [total] at ht
  unfold probaRow
  simp only
  rw [if_neg hne]
  have hkn : Keys (normVotes (votesFor E s x)) := by unfold Keys; rw [keys_norm]; exact hk
  have hmem : ∀ p ∈ normVotes (votesFor E s x), ∃ q ∈ votesFor E s x, q.1 = p.1 := by
    intro p hp
    have : p.1 ∈ (normVotes (votesFor E s x)).map Prod.fst := List.mem_map.mpr ⟨p, hp, rfl⟩
    rw [keys_norm] at this
    obtain ⟨q, hq, e⟩ := List.mem_map.mp this
    exact ⟨q, hq, e⟩
  have fin : ∀ n, (∀ p ∈ normVotes (votesFor E s x), p.1 < n) →
      ∃ row, fillRow (normVotes (votesFor E s x)) (List.replicate n 0) = .ok row ∧ row.sum = 1 ∧
        ∀ c, row.getD c 0 = vote (votesFor E s x) c / total (votesFor E s x) := by
    intro n hn
    have hz : ∀ c, (List.replicate n (0 : ℚ)).getD c 0 = 0 := by
      intro c
      simp only [List.getD_eq_getElem?_getD, List.getElem?_replicate]
      split <;> rfl
    obtain ⟨row, e, _, es, eg⟩ := fillRow_ok _ (List.replicate n 0) hkn (by simpa using hn) (fun p _ => hz p.1)
    refine ⟨row, e, ?_, fun c => ?_⟩
    · rw [es, total_norm _ ht]; simp
    · rw [eg, hz, zero_add, vote_norm _ ht]
  cases classes with
  | none =>
    refine fin _ fun p hp => ?_
    exact Nat.lt_succ_of_le ((le_foldl_max _ 0).2 p.1 (List.mem_map.mpr ⟨p, hp, rfl⟩))
  | some cs =>
    have hcs := hc cs rfl
    cases cs with
    | nil =>
      obtain ⟨p, hp⟩ := List.exists_mem_of_ne_nil _ hne
      exact absurd (hcs p hp) (by simp)
    | cons a cs =>
      refine fin _ fun p hp => ?_
      obtain ⟨q, hq, e⟩ := hmem p hp
      exact Nat.lt_succ_of_le ((le_foldl_max _ 0).2 p.1 (e ▸ hcs q hq))

/-- C113: a vote for a class beyond the declared ones raises `IndexError`. -/
theorem C113_undeclared_class (E : Env O D K) (cs : List Nat) (s : St O D) (x : Nat → ℚ) (h : cs ≠ [])
    (hc : ∃ p ∈ votesFor E s x, ∀ c ∈ cs, c < p.1) :
    probaRow E (some cs) s x = .error .indexError := by
  obtain ⟨p, hp, hlt⟩ := hc
  have hbound : cs.foldl max 0 < p.1 := by
    have : ∀ (l : List Nat) (a : Nat), a < p.1 → (∀ c ∈ l, c < p.1) → l.foldl max a < p.1 := by
      intro l
      induction l with
      | nil => intro a ha _; exact ha
      | cons b l ih => intro a ha hl; exact ih _ (max_lt ha (hl b (by simp))) fun c hc => hl c (by simp [hc])
    obtain ⟨c, hc⟩ := List.exists_mem_of_ne_nil _ h
    exact this cs 0 (lt_of_le_of_lt (Nat.zero_le c) (hlt c hc)) hlt
  have hne : votesFor E s x ≠ [] := List.ne_nil_of_mem hp
  have hp' : ∃ q ∈ normVotes (votesFor E s x), q.1 = p.1 := by
    have : p.1 ∈ (normVotes (votesFor E s x)).map Prod.fst := by
      rw [keys_norm]; exact List.mem_map.mpr ⟨p, hp, rfl⟩
    obtain ⟨q, hq, e⟩ := List.mem_map.mp this
    exact ⟨q, hq, e⟩
  have herr : ∀ (v : SDict Nat ℚ) (row : List ℚ), (∃ q ∈ v, row.length ≤ q.1) →
      fillRow v row = .error .indexError := by
    intro v
    induction v with
    | nil => rintro row ⟨q, hq, _⟩; cases hq
    | cons a v ih =>
      obtain ⟨k, w⟩ := a
      rintro row ⟨q, hq, hl⟩
      unfold fillRow
      by_cases hk : k < row.length
      · rw [if_pos hk]
        refine ih _ ?_
        rcases List.mem_cons.mp hq with rfl | hq
        · exact absurd hk (not_lt.mpr hl)
        · exact ⟨q, hq, by rw [List.length_set]; exact hl⟩
      · rw [if_neg hk]
  unfold probaRow
  simp only
  rw [if_neg hne]
  obtain ⟨q, hq, e⟩ := hp'
  cases cs with
  | nil => exact absurd rfl h
  | cons a cs =>
    refine herr _ _ ⟨q, hq, ?_⟩
    rw [List.length_replicate, e]; exact hbound

end Verif.Rules
