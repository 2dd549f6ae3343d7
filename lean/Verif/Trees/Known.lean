import Verif.Trees.Predict
import Verif.Trees.Gaussian

/-!
C207: which classes a Hoeffding tree can predict.  Continues `Trees/Predict.lean`; the naive Bayes vote of a
leaf with one numeric attribute is modelled for the counterexample.
-/

namespace Verif.Trees.HL

open Verif.Trees

variable {O : Type}

/-! ### The class counts of a tree -/

mutual
/-- The class counts of all nodes of a tree. -/
def T.allStats : T O → List Stats
  | .leaf l => [l.stats]
  | .split _ s kids => s :: kids.allStats
/-- The class counts of all nodes of subtrees. -/
def F.allStats : F O → List Stats
  | .nil => []
  | .cons _ t rest => t.allStats ++ rest.allStats
end

mutual
theorem T.stats_modify (P : Stats → Prop) (f : T O → T O) (t : T O) (p : Path) (h : ∀ s ∈ t.allStats, P s)
    (hf : ∀ s, t.get p = some s → (∀ a ∈ s.allStats, P a) → ∀ a ∈ (f s).allStats, P a) :
    ∀ s ∈ (t.modify f p).allStats, P s := by
  match t, p with
  | .leaf a, [] => exact hf _ rfl h
  | .split m st kids, [] => exact hf _ rfl h
  | .leaf a, i :: p => exact h
  | .split m st kids, i :: p =>
    simp only [T.modify, T.allStats, List.forall_mem_cons] at h ⊢
    exact ⟨h.1, F.stats_modify P f kids i p h.2 fun s hs => hf s (by simpa only [T.get] using hs)⟩
theorem F.stats_modify (P : Stats → Prop) (f : T O → T O) (k : F O) (i : Nat) (p : Path) (h : ∀ s ∈ k.allStats, P s)
    (hf : ∀ s, k.get i p = some s → (∀ a ∈ s.allStats, P a) → ∀ a ∈ (f s).allStats, P a) :
    ∀ s ∈ (k.modify f i p).allStats, P s := by
  match k with
  | .nil => exact h
  | .cons j t rest =>
    simp only [F.get] at hf
    rw [F.modify]
    simp only [F.allStats, List.mem_append] at h
    by_cases e : i = j
    · rw [if_pos e]
      simp only [if_pos e] at hf
      have := T.stats_modify P f t p (fun s hs => h s (.inl hs)) hf
      intro s hs
      simp only [F.allStats, List.mem_append] at hs
      exact hs.elim (this s) fun hs => h s (.inr hs)
    · rw [if_neg e]
      simp only [if_neg e] at hf
      have := F.stats_modify P f rest i p (fun s hs => h s (.inr hs)) hf
      intro s hs
      simp only [F.allStats, List.mem_append] at hs
      exact hs.elim (fun hs => h s (.inl hs)) (this s)
end

mutual
theorem T.stats_get (t : T O) (p : Path) (s : T O) (h : t.get p = some s) : ∀ a ∈ s.allStats, a ∈ t.allStats := by
  match t, p with
  | .leaf a, [] => simp only [T.get, Option.some.injEq] at h; subst h; exact fun _ h => h
  | .split m st kids, [] => simp only [T.get, Option.some.injEq] at h; subst h; exact fun _ h => h
  | .leaf a, i :: p => simp [T.get] at h
  | .split m st kids, i :: p =>
    simp only [T.get] at h
    intro a ha
    simp only [T.allStats, List.mem_cons]
    exact .inr (F.stats_get kids i p s h a ha)
theorem F.stats_get (k : F O) (i : Nat) (p : Path) (s : T O) (h : k.get i p = some s) : ∀ a ∈ s.allStats, a ∈ k.allStats := by
  match k with
  | .nil => simp [F.get] at h
  | .cons j t rest =>
    rw [F.get] at h
    intro a ha
    simp only [F.allStats, List.mem_append]
    by_cases e : i = j
    · rw [if_pos e] at h; exact .inl (T.stats_get t p s h a ha)
    · rw [if_neg e] at h; exact .inr (F.stats_get rest i p s h a ha)
end

theorem F.stats_snoc (k : F O) (i : Nat) (t : T O) : (k.snoc i t).allStats = k.allStats ++ t.allStats := by
  match k with
  | .nil => simp [F.snoc, F.allStats]
  | .cons j u rest => simp [F.snoc, F.allStats, F.stats_snoc rest i t]

theorem newKids_stats (cfg : Cfg O) (ds : List Stats) (i : Nat) : (newKids cfg i ds).allStats = ds := by
  induction ds generalizing i with
  | nil => rfl
  | cons d ds ih => simp [newKids, F.allStats, T.allStats, newLeaf, ih]

theorem manage_stats (P : Stats → Prop) (cfg : Cfg O) (m : List (Path × Bool)) (r : T O) (h : ∀ s ∈ r.allStats, P s) :
    ∀ s ∈ (manage cfg r m).allStats, P s := by
  unfold manage
  induction m generalizing r with
  | nil => exact h
  | cons q m ih =>
    refine ih _ (T.stats_modify P _ r q.1 h fun s _ hs => ?_)
    cases s with
    | split _ _ _ => exact hs
    | leaf l =>
      rw [setActive]
      by_cases hl : l.active = q.2
      · rw [if_pos hl]; exact hs
      · rw [if_neg hl]; exact hs

/-- The class counts that a split gives to its branches. -/
def Ev.Hands (P : Stats → Prop) (e : Ev O) : Prop :=
  ∀ l t ds, P l.stats → e.choose l = .split t ds → ∀ d ∈ ds, P d

theorem attempt_stats (P : Stats → Prop) (cfg : Cfg O) (e : Ev O) (hh : e.Hands P) (l : Leaf O) (hl : P l.stats) :
    ∀ s ∈ (attempt cfg e l).allStats, P s := by
  unfold attempt
  by_cases hc : e.growth ∧ l.active ∧ total l.stats - l.last ≥ cfg.grace
  · rw [if_pos hc]
    cases hch : e.choose l with
    | keep f => simpa [T.allStats] using hl
    | prune => simpa [T.allStats, newLeaf] using hl
    | split t ds =>
      simp only [T.allStats, newKids_stats, List.forall_mem_cons]
      exact ⟨hl, hh l t ds hl hch⟩
  · rw [if_neg hc]; simpa [T.allStats] using hl

/-- A property of class counts that holds for those of one row, survives counting a row and is handed on by
splits holds in the whole tree. -/
theorem step_stats (P : Stats → Prop) (cfg : Cfg O) (n : Nat) (root : Option (T O)) (hroot : ∀ r, root = some r → r.WF n)
    (hP : ∀ r, root = some r → ∀ s ∈ r.allStats, P s) (e : Ev O) (he : e.Ok n) (hh : e.Hands P)
    (hb : ∀ s, s = [] ∨ P s → P (bump s e.y e.w)) (r' : T O) (hs : step cfg root e = .ok r') : ∀ s ∈ r'.allStats, P s := by
  obtain ⟨r1, p, s, h1, h2, h3, h4, h5⟩ := step_spec cfg n root hroot e he
  rw [h1] at hs
  cases hs
  refine manage_stats P cfg _ r1 ?_
  have hnew : P (bump [] e.y e.w) := hb [] (.inl rfl)
  cases root with
  | none =>
    simp only [Option.getD_none] at h3 h4 h5
    have hp : p = [] := by
      simp only [T.filter, Except.ok.injEq, Found.node.injEq] at h3
      exact h3.symm
    subst hp
    simp only [T.get, Option.some.injEq] at h4
    subst h4
    rcases h5 with ⟨l, hl, rfl⟩ | ⟨m, m', st, kids, id, hl, rfl⟩
    · cases hl
      exact attempt_stats P cfg e hh _ hnew
    · cases hl
  | some r =>
    simp only [Option.getD_some] at h3 h4 h5
    have hr := hP r rfl
    rcases h5 with ⟨l, rfl, rfl⟩ | ⟨m, m', st, kids, id, rfl, rfl⟩
    · refine T.stats_modify P _ r p hr fun s hs _ => attempt_stats P cfg e hh _ (hb _ (.inr ?_))
      exact hr _ (T.stats_get r p _ h4 _ (by simp [T.allStats]))
    · refine T.stats_modify P _ r p hr fun s hs _ => ?_
      have := T.stats_get r p _ h4
      intro a ha
      simp only [T.allStats, F.stats_snoc, List.mem_cons, List.mem_append, List.not_mem_nil, or_false] at ha
      rcases ha with rfl | ha | rfl
      · exact hr _ (this _ (by simp [T.allStats]))
      · exact hr _ (this _ (by simp [T.allStats, ha]))
      · exact hnew

theorem run_stats (P : Stats → Prop) (cfg : Cfg O) (n : Nat) (es : List (Ev O)) (he : ∀ e ∈ es, e.Ok n)
    (hh : ∀ e ∈ es, e.Hands P) (hb : ∀ e ∈ es, ∀ s, s = [] ∨ P s → P (bump s e.y e.w)) (root root' : Option (T O))
    (hroot : ∀ r, root = some r → r.WF n) (hP : ∀ r, root = some r → ∀ s ∈ r.allStats, P s)
    (hr : run cfg root es = .ok root') :
    ∀ r, root' = some r → r.WF n ∧ ∀ s ∈ r.allStats, P s := by
  induction es generalizing root with
  | nil => cases hr; exact fun r h => ⟨hroot r h, hP r h⟩
  | cons e es ih =>
    simp only [List.forall_mem_cons] at he hh hb
    obtain ⟨r1, h1, h2, -⟩ := step_weight cfg n root hroot e he.1
    rw [run, h1] at hr
    refine ih he.2 hh.2 hb.2 (some r1) ?_ ?_ hr
    · rintro r ⟨⟩; exact h2
    · rintro r ⟨⟩; exact step_stats P cfg n root hroot hP e he.1 hh.1 hb.1 r1 h1

/-! ### C207 -/

/-- Class counts of classes in `S` only, none negative. -/
def Of (S : Int → Prop) (s : List (Int × ℚ)) : Prop := SDict.Sorted s ∧ ∀ q ∈ s, S q.1 ∧ 0 ≤ q.2

/-- The splits chosen only hand out weights of classes the leaf has counted. -/
def Ev.Fair (e : Ev O) : Prop :=
  ∀ l t ds, e.choose l = .split t ds → ∀ d ∈ ds, SDict.Sorted d ∧ ∀ q ∈ d, 0 ≤ q.2 ∧ q.1 ∈ l.stats.map Prod.fst

/-- No branch of a split chosen is without weight. -/
def Ev.Filled (e : Ev O) : Prop := ∀ l t ds, e.choose l = .split t ds → ∀ d ∈ ds, ∃ q ∈ d, 0 < q.2

/-- Naive Bayes votes for the classes counted, or for none. -/
def Cfg.Plain (cfg : Cfg O) : Prop :=
  ∀ s o x, (∀ q ∈ s, 0 ≤ q.2) →
    (cfg.bayes s o x).map Prod.fst = s.map Prod.fst ∧ (∀ q ∈ cfg.bayes s o x, 0 ≤ q.2) ∨ cfg.bayes s o x = [(0, 0)]

theorem bump_of (S : Int → Prop) (s : Stats) (y : Int) (w : ℚ) (hy : S y) (hw : 0 ≤ w) (h : Of S s) : Of S (bump s y w) := by
  refine ⟨SDict.alter_sorted _ _ _ h.1, fun q hq => ?_⟩
  rcases SDict.alter_mem _ s y q hq with hq | ⟨h1, o, h2, h3⟩
  · exact h.2 q hq
  · refine ⟨by rw [h1]; exact hy, ?_⟩
    rw [h2]
    cases o with
    | none => simpa using hw
    | some v => have := (h.2 _ (h3 v rfl)).2; simp only [Option.getD_some] at this ⊢; linarith

theorem bump_pos (s : Stats) (y : Int) (w : ℚ) (hw : 0 < w) (h : ∀ q ∈ s, 0 ≤ q.2) : ∃ q ∈ bump s y w, 0 < q.2 := by
  by_contra hc
  have hc : ∀ q ∈ bump s y w, q.2 ≤ 0 := fun q hq => not_lt.1 fun h => hc ⟨q, hq, h⟩
  have h1 := classWeight_bump s y w y
  rw [if_pos rfl] at h1
  have h2 : 0 ≤ classWeight s y := by
    unfold classWeight
    refine List.sum_nonneg fun v hv => ?_
    obtain ⟨q, hq, rfl⟩ := List.mem_map.1 hv
    exact h q (List.mem_of_mem_filter hq)
  have h3 : classWeight (bump s y w) y ≤ 0 := by
    unfold classWeight
    have : ∀ l : List ℚ, (∀ v ∈ l, v ≤ 0) → l.sum ≤ 0 := by
      intro l
      induction l with
      | nil => simp
      | cons a l ih =>
        intro hl
        simp only [List.forall_mem_cons] at hl
        rw [List.sum_cons]; linarith [ih hl.2]
    refine this _ fun v hv => ?_
    obtain ⟨q, hq, rfl⟩ := List.mem_map.1 hv
    exact hc q (List.mem_of_mem_filter hq)
  linarith

theorem Of.nodup {S : Int → Prop} {s : List (Int × ℚ)} (h : Of S s) : (s.map Prod.fst).Nodup := by
  have := h.1
  unfold SDict.Sorted at this
  rw [List.Nodup, List.pairwise_map]
  exact this.imp fun h => h.ne

theorem exists_top (v : List (Int × ℚ)) (hne : v ≠ []) (h0 : ∀ q ∈ v, 0 ≤ q.1) : ∃ m, IsTop none v m := by
  induction v with
  | nil => exact absurd rfl hne
  | cons a v ih =>
    simp only [List.forall_mem_cons] at h0
    by_cases hv : v = []
    · subst hv
      exact ⟨a.1.toNat, by simp only [IsTop, Option.getD_none, List.map_cons, List.map_nil, List.mem_singleton, forall_eq]; omega⟩
    · obtain ⟨m, h1, h2⟩ := ih hv h0.2
      simp only [Option.getD_none] at h1 h2
      by_cases hm : a.1 ≤ m
      · exact ⟨m, by simp only [IsTop, Option.getD_none, List.map_cons, List.mem_cons]; exact .inr h1, by
          simp only [Option.getD_none, List.map_cons, List.forall_mem_cons]; exact ⟨hm, h2⟩⟩
      · refine ⟨a.1.toNat, ?_, ?_⟩
        · simp only [Option.getD_none, List.map_cons, List.mem_cons]; left; omega
        · simp only [Option.getD_none, List.map_cons, List.forall_mem_cons]
          exact ⟨by omega, fun c hc => by have := h2 c hc; omega⟩

theorem argmax_zeros (row : List ℚ) (h : ∀ v ∈ row, v = 0) : Lazy.argmax row = 0 := by
  by_cases hr : row = []
  · subst hr; rfl
  · obtain ⟨v, h1, h2, h3⟩ := Lazy.argmax_spec row hr
    by_contra hne
    obtain ⟨a, l, rfl⟩ := List.exists_cons_of_ne_nil hr
    have := h3 0 a (by omega) rfl
    rw [h a (by simp), h v (List.mem_of_getElem? h1)] at this
    exact lt_irrefl _ this

theorem zero_row (v : List (Int × ℚ)) (hn : (v.map Prod.fst).Nodup) (h0 : ∀ q ∈ v, 0 ≤ q.1 ∧ q.2 = 0) :
    ∃ row, probaRow none v = .ok row ∧ ∀ a ∈ row, a = 0 := by
  cases v with
  | nil => exact ⟨[0], rfl, by simp⟩
  | cons a l =>
    obtain ⟨k, w⟩ := a
    obtain ⟨m, hm1, hm2⟩ := exists_top ((k, w) :: l) (by simp) fun q hq => (h0 q hq).1
    simp only [Option.getD_none] at hm1 hm2
    have hs : (((k, w) :: l).map Prod.snd).sum = 0 := by
      have : ∀ l : List (Int × ℚ), (∀ q ∈ l, q.2 = 0) → (l.map Prod.snd).sum = 0 := by
        intro l
        induction l with
        | nil => simp
        | cons a l ih =>
          intro hl
          simp only [List.forall_mem_cons] at hl
          rw [List.map_cons, List.sum_cons, hl.1, ih hl.2, add_zero]
      exact this _ fun q hq => (h0 q hq).2
    have hf : (l.map Prod.fst).foldl max k = m := foldl_max_top k (l.map Prod.fst) m hm1 hm2
    unfold probaRow
    simp only [Option.getD_none, hs, ne_eq, not_true, if_false, hf]
    rw [if_neg (by omega)]
    obtain ⟨a', h1, h2, h3⟩ := assignAll_ok ((k, w) :: l) (List.replicate ((m : Int) + 1).toNat 0) hn (by
      intro q hq
      refine ⟨(h0 q hq).1, ?_⟩
      have := hm2 q.1 (List.mem_map_of_mem hq)
      rw [List.length_replicate]; omega)
    refine ⟨a', h1, fun a ha => ?_⟩
    obtain ⟨c, hc⟩ := List.mem_iff_getElem?.1 ha
    rw [h3 c] at hc
    cases hl : ((k, w) :: l).lookup (c : Int) with
    | some u =>
      rw [hl] at hc
      cases hc
      exact (h0 _ (lookup_mem _ _ _ hl)).2
    | none =>
      rw [hl] at hc
      simp only [List.getElem?_replicate] at hc
      by_cases hcm : c < ((m : Int) + 1).toNat
      · rw [if_pos hcm] at hc; cases hc; rfl
      · rw [if_neg hcm] at hc; cases hc

/-- The answer for one row from its votes. -/
theorem answer_of (cfg : Cfg O) (root : Option (T O)) (x : List ℚ) (v : List (Int × ℚ)) (hv : votesAt cfg root x = .ok v)
    (S : Int → Prop) (hS : ∀ c, S c → 0 ≤ c) (ho : Of S v ∨ v = [(0, 0)]) :
    ∃ k, predict cfg root none [x] = .ok [k] ∧ ((∃ q ∈ v, 0 < q.2) → S k) ∧ (S k ∨ k = 0 ∧ ∀ q ∈ v, q.2 = 0) := by
  have hpred : ∀ row, probaRow none v = .ok row → predict cfg root none [x] = .ok [Lazy.argmax row] := by
    intro row hr
    unfold predict proba collect collect
    simp only [hv, hr, pad, List.map_cons, List.map_nil, List.foldl_cons, List.foldl_nil]
    simp
  have hz : (∀ q ∈ v, 0 ≤ q.1 ∧ q.2 = 0) → (v.map Prod.fst).Nodup → ∃ k, predict cfg root none [x] = .ok [k] ∧
      ((∃ q ∈ v, 0 < q.2) → S k) ∧ (S k ∨ k = 0 ∧ ∀ q ∈ v, q.2 = 0) := by
    intro h0 hn
    obtain ⟨row, h1, h2⟩ := zero_row v hn h0
    refine ⟨Lazy.argmax row, hpred row h1, ?_, .inr ⟨argmax_zeros row h2, fun q hq => (h0 q hq).2⟩⟩
    rintro ⟨q, hq, hp⟩
    rw [(h0 q hq).2] at hp
    exact absurd hp (lt_irrefl _)
  rcases ho with ho | rfl
  · by_cases hp : ∃ q ∈ v, 0 < q.2
    · have hne : v ≠ [] := by rintro rfl; simp at hp
      obtain ⟨m, hm⟩ := exists_top v hne fun q hq => hS _ (ho.2 q hq).1
      have hm2 := hm.2
      simp only [Option.getD_none] at hm2
      obtain ⟨row, k, w, h1, h2, h3, -⟩ := C126_predict_row_partial none v m hm ho.nodup
        (fun q hq => ⟨hS _ (ho.2 q hq).1, hm2 _ (List.mem_map_of_mem hq), (ho.2 q hq).2⟩) hp 0
      rw [List.replicate_zero, List.append_nil] at h2
      refine ⟨k, by rw [hpred row h1, h2], fun _ => (ho.2 _ h3).1, .inl (ho.2 _ h3).1⟩
    · refine hz (fun q hq => ⟨hS _ (ho.2 q hq).1, le_antisymm ?_ (ho.2 q hq).2⟩) ho.nodup
      exact not_lt.1 fun h => hp ⟨q, hq, h⟩
  · exact hz (by simp) (by simp)

theorem votes_of (cfg : Cfg O) (hp : cfg.Plain) (S : Int → Prop) (l : Leaf O) (x : List ℚ) (h : Of S l.stats) :
    Of S (l.votes cfg x) ∨ l.votes cfg x = [(0, 0)] := by
  have hb : Of S (cfg.bayes l.stats l.obs x) ∨ cfg.bayes l.stats l.obs x = [(0, 0)] := by
    rcases hp l.stats l.obs x (fun q hq => (h.2 q hq).2) with ⟨h1, h2⟩ | h1
    · left
      constructor
      · have := h.1
        unfold SDict.Sorted at this ⊢
        rw [← List.pairwise_map (f := Prod.fst) (R := fun a b : Int => a < b)] at this ⊢
        rw [h1]; exact this
      · intro q hq
        refine ⟨?_, h2 q hq⟩
        have : q.1 ∈ l.stats.map Prod.fst := by rw [← h1]; exact List.mem_map_of_mem hq
        obtain ⟨q', hq', e⟩ := List.mem_map.1 this
        rw [← e]; exact (h.2 q' hq').1
    · exact .inr h1
  unfold Leaf.votes
  by_cases ha : l.active = true
  · rw [if_pos ha]
    cases cfg.kind with
    | mc => exact .inl h
    | nb =>
      simp only
      by_cases hc : total l.stats ≥ cfg.nbThreshold
      · rw [if_pos hc]; exact hb
      · rw [if_neg hc]; exact .inl h
    | nba =>
      simp only
      by_cases hc : l.mc > l.nb
      · rw [if_pos hc]; exact .inl h
      · rw [if_neg hc]; exact hb
  · rw [if_neg ha]; exact .inl h

theorem votesAt_of (cfg : Cfg O) (hp : cfg.Plain) (S : Int → Prop) (n : Nat) (r : T O) (hr : r.WF n) (hs : ∀ s ∈ r.allStats, Of S s)
    (x : List ℚ) (hx : x.length = n) : ∃ v, votesAt cfg (some r) x = .ok v ∧ (Of S v ∨ v = [(0, 0)]) := by
  obtain ⟨p, -, h⟩ := C126_votes_partial cfg n r hr x hx
  rcases h with ⟨l, h1, h2⟩ | ⟨m, st, kids, h1, -, h2⟩
  · exact ⟨_, h2, votes_of cfg hp S l x (hs _ (T.stats_get r p _ h1 _ (by simp [T.allStats])))⟩
  · exact ⟨_, h2, .inl (hs _ (T.stats_get r p _ h1 _ (by simp [T.allStats])))⟩

theorem fair_hands (S : Int → Prop) (e : Ev O) (hf : e.Fair) : e.Hands (Of S) := by
  intro l t ds hl hc d hd
  obtain ⟨h1, h2⟩ := hf l t ds hc d hd
  refine ⟨h1, fun q hq => ⟨?_, (h2 q hq).1⟩⟩
  obtain ⟨q', hq', e⟩ := List.mem_map.1 (h2 q hq).2
  rw [← e]; exact (hl.2 q' hq').1

/-- C207: a Hoeffding tree answers every row with a class it was trained on, or with class 0 if no class
gets a vote. -/
theorem C207_known_or_zero_partial (cfg : Cfg O) (hp : cfg.Plain) (n : Nat) (es : List (Ev O))
    (he : ∀ e ∈ es, e.Ok n ∧ e.Fair ∧ 0 ≤ e.y ∧ 0 ≤ e.w) (root : Option (T O)) (hr : run cfg none es = .ok root)
    (x : List ℚ) (hx : x.length = n) :
    ∃ k v, predict cfg root none [x] = .ok [k] ∧ votesAt cfg root x = .ok v ∧
      ((∃ e ∈ es, e.y = k) ∨ k = 0 ∧ ∀ q ∈ v, q.2 = 0) := by
  have h := run_stats (Of fun c => ∃ e ∈ es, e.y = c) cfg n es (fun e m => (he e m).1)
    (fun e m => fair_hands _ e (he e m).2.1)
    (fun e m s hs => by
      have h1 := he e m
      refine bump_of _ s e.y e.w ⟨e, m, rfl⟩ h1.2.2.2 ?_
      rcases hs with rfl | hs
      · exact ⟨List.Pairwise.nil, by simp⟩
      · exact hs) none root (by simp) (by simp) hr
  have hS : ∀ c, (∃ e ∈ es, e.y = c) → 0 ≤ c := by rintro c ⟨e, m, rfl⟩; exact (he e m).2.2.1
  cases root with
  | none =>
    obtain ⟨k, h1, h2, h3⟩ := answer_of cfg none x [] rfl (fun c => ∃ e ∈ es, e.y = c) hS (.inl ⟨List.Pairwise.nil, by simp⟩)
    exact ⟨k, [], h1, rfl, h3⟩
  | some r =>
    obtain ⟨hw, hs⟩ := h r rfl
    obtain ⟨v, h1, h2⟩ := votesAt_of cfg hp _ n r hw hs x hx
    obtain ⟨k, h3, -, h4⟩ := answer_of cfg (some r) x v h1 _ hS h2
    exact ⟨k, v, h3, h1, h4⟩

/-- C207: with majority-class leaves, and splits without empty branches, every answer of a trained tree is a
class it was trained on. -/
theorem C207_majority_partial (cfg : Cfg O) (hk : cfg.kind = .mc) (n : Nat) (es : List (Ev O)) (hes : es ≠ [])
    (he : ∀ e ∈ es, e.Ok n ∧ e.Fair ∧ e.Filled ∧ 0 ≤ e.y ∧ 0 < e.w) (root : Option (T O)) (hr : run cfg none es = .ok root)
    (x : List ℚ) (hx : x.length = n) :
    ∃ k : Nat, predict cfg root none [x] = .ok [k] ∧ ∃ e ∈ es, e.y = k := by
  have h := run_stats (fun s => (Of fun c => ∃ e ∈ es, e.y = c) s ∧ ∃ q ∈ s, 0 < q.2) cfg n es (fun e m => (he e m).1)
    (fun e m l t ds hl hc d hd => ⟨fair_hands _ e (he e m).2.1 l t ds hl.1 hc d hd, (he e m).2.2.1 l t ds hc d hd⟩)
    (fun e m s hs => by
      have h1 := he e m
      have h2 : Of (fun c => ∃ e ∈ es, e.y = c) s := by
        rcases hs with rfl | hs
        · exact ⟨List.Pairwise.nil, by simp⟩
        · exact hs.1
      exact ⟨bump_of _ s e.y e.w ⟨e, m, rfl⟩ h1.2.2.2.2.le h2, bump_pos s e.y e.w h1.2.2.2.2 fun q hq => (h2.2 q hq).2⟩)
    none root (by simp) (by simp) hr
  have hS : ∀ c, (∃ e ∈ es, e.y = c) → 0 ≤ c := by rintro c ⟨e, m, rfl⟩; exact (he e m).2.2.2.1
  cases root with
  | none =>
    obtain ⟨e, es', rfl⟩ := List.exists_cons_of_ne_nil hes
    rw [run] at hr
    cases hs : step cfg none e with
    | error err => rw [hs] at hr; cases hr
    | ok r =>
      rw [hs] at hr
      simp only at hr
      have : ∀ (es : List (Ev O)) (r : T O), run cfg (some r) es ≠ .ok none := by
        intro es
        induction es with
        | nil => intro r h; cases h
        | cons e es ih =>
          intro r h
          rw [run] at h
          cases hs : step cfg (some r) e with
          | error err => rw [hs] at h; cases h
          | ok r' => rw [hs] at h; exact ih r' h
      exact absurd hr (this es' r)
  | some r =>
    obtain ⟨hw, hs⟩ := h r rfl
    obtain ⟨p, -, hv⟩ := C126_votes_partial cfg n r hw x hx
    have key : ∃ v, votesAt cfg (some r) x = .ok v ∧ Of (fun c => ∃ e ∈ es, e.y = c) v ∧ ∃ q ∈ v, 0 < q.2 := by
      rcases hv with ⟨l, h1, h2⟩ | ⟨m, st, kids, h1, -, h2⟩
      · have hvotes : l.votes cfg x = l.stats := by
          unfold Leaf.votes
          rw [hk]
          simp
        exact ⟨_, h2, by rw [hvotes]; exact hs _ (T.stats_get r p _ h1 _ (by simp [T.allStats]))⟩
      · exact ⟨_, h2, hs _ (T.stats_get r p _ h1 _ (by simp [T.allStats]))⟩
    obtain ⟨v, h1, h2, h3⟩ := key
    obtain ⟨k, h4, h5, -⟩ := answer_of cfg (some r) x v h1 _ hS (.inl h2)
    exact ⟨k, h4, h5 h3⟩

/-! ### Naive Bayes leaves with one numeric attribute -/

/-- `do_naive_bayes_prediction` (bayes/utils.py 4-42) for instances of one numeric attribute; the observer of a
leaf is created with the first row (trees/_nodes/base.py 438-448), so `[]` stands for no observer.  `pdf` is
`probability_density` of gaussian_estimator.py 51-72. -/
def gBayes (pdf : Est → ℚ → ℚ) (s : Stats) (o : GObs) (x : List ℚ) : List (Int × ℚ) :=
  if s = [] ∨ total s = 0 then [(0, 0)]
  else s.map fun q => (q.1, q.2 / total s *
    if o = [] then 1
    else match o.lookup q.1.toNat with
      | some r => pdf r.est (x.getD 0 0)
      | none => 0)

/-- A tree over one numeric attribute. -/
def gCfg (pdf : Est → ℚ → ℚ) (kind : Kind) (grace : ℚ) : Cfg GObs :=
  ⟨kind, 0, grace, [], fun o x y w => gUpdate o y.toNat (x.getD 0 0) w, gBayes pdf⟩

theorem maxKey_scale (s : Stats) (c : ℚ) (hc : 0 < c) : maxKey (s.map fun q => (q.1, q.2 / c)) = maxKey s := by
  cases s with
  | nil => rfl
  | cons a l =>
    simp only [List.map_cons, maxKey, Option.some.injEq]
    have : ∀ (l : List (Int × ℚ)) (a : Int × ℚ),
        (l.map fun q => (q.1, q.2 / c)).foldl (fun (b : Int × ℚ) d => if b.2 < d.2 then d else b) (a.1, a.2 / c) =
          ((l.foldl (fun (b : Int × ℚ) d => if b.2 < d.2 then d else b) a).1,
            (l.foldl (fun (b : Int × ℚ) d => if b.2 < d.2 then d else b) a).2 / c) := by
      intro l
      induction l with
      | nil => intro a; rfl
      | cons d l ih =>
        intro a
        simp only [List.map_cons, List.foldl_cons]
        by_cases h : a.2 < d.2
        · rw [if_pos h, if_pos ((div_lt_div_iff_of_pos_right hc).2 h)]; exact ih d
        · rw [if_neg h, if_neg (fun h' => h ((div_lt_div_iff_of_pos_right hc).1 h'))]; exact ih a
    rw [this l a]

/-- C207: a branch of a split inherits class counts but no observers.  After its first row, a leaf with naive
Bayes or adaptive leaf prediction gives no vote at all to any value of the attribute but that of the
row, so that the tree answers with class 0, whatever the classes the leaf has counted. -/
theorem C207_new_branch_violated (pdf : Est → ℚ → ℚ) (hpdf : ∀ e v, e.variance = 0 → pdf e v = degeneratePdf e v) (kind : Kind)
    (hk : kind ≠ .mc) (grace : ℚ) (s : Stats) (hs : 0 < total s) (hnn : ∀ q ∈ s, 0 ≤ q.2) (a w : ℚ) (hw : 0 < w) (y : Int) (x : ℚ)
    (hx : x ≠ a) :
    ∀ q ∈ ((newLeaf (gCfg pdf kind grace) true s).learn (gCfg pdf kind grace) [a] y w).votes (gCfg pdf kind grace) [x], q.2 = 0 := by
  have hvar : (⟨w, a, 0⟩ : Est).variance = 0 := by unfold Est.variance; simp
  have hpdf0 : pdf ⟨w, a, 0⟩ x = 0 := by
    rw [hpdf _ _ hvar]
    unfold degeneratePdf
    rw [if_neg]
    rintro ⟨-, h⟩
    exact hx h
  have hobs : gUpdate [] y.toNat a w = [(y.toNat, ⟨⟨w, a, 0⟩, a, a⟩)] := by
    simp [gUpdate, Est.add]
  have hb : ∀ q ∈ gBayes pdf (bump s y w) (gUpdate [] y.toNat a w) [x], q.2 = 0 := by
    unfold gBayes
    by_cases h0 : bump s y w = [] ∨ total (bump s y w) = 0
    · rw [if_pos h0]; simp
    · rw [if_neg h0, hobs]
      intro q hq
      obtain ⟨q', -, rfl⟩ := List.mem_map.1 hq
      simp only [List.cons_ne_nil, if_false, List.lookup_cons, List.lookup_nil, List.getD_cons_zero]
      cases (q'.1.toNat == y.toNat) with
      | true => simp [hpdf0]
      | false => simp
  have hnb : nbRight (gCfg pdf kind grace) s [] [a] y = mcRight s y := by
    have hne : s ≠ [] := by rintro rfl; simp [total] at hs
    have hb0 : gBayes pdf s [] [a] = s.map fun q => (q.1, q.2 / total s) := by
      unfold gBayes
      rw [if_neg (by rintro (h | h); exacts [hne h, hs.ne' h])]
      simp
    unfold nbRight mcRight
    rw [show (gCfg pdf kind grace).bayes = gBayes pdf from rfl, hb0, maxKey_scale s _ hs]
    cases hm : maxKey s with
    | none => cases s with
      | nil => exact absurd rfl hne
      | cons a l => simp [maxKey] at hm
    | some k => rfl
  have hth : total (bump s y w) ≥ 0 := by
    unfold total
    refine List.sum_nonneg fun v hv => ?_
    obtain ⟨q, hq, rfl⟩ := List.mem_map.1 hv
    rcases SDict.alter_mem _ s y q hq with hq | ⟨h1, o, h2, h3⟩
    · exact hnn q hq
    · rw [h2]
      cases o with
      | none => simpa using hw.le
      | some v => have := hnn _ (h3 v rfl); simp only [Option.getD_some] at this ⊢; linarith
  cases kind with
  | mc => exact absurd rfl hk
  | nb =>
    simp only [Leaf.votes, Leaf.learn, newLeaf, if_true, gCfg, if_pos hth]
    exact hb
  | nba =>
    have hc : ¬ (((newLeaf (gCfg pdf .nba grace) true s).learn (gCfg pdf .nba grace) [a] y w).mc >
        ((newLeaf (gCfg pdf .nba grace) true s).learn (gCfg pdf .nba grace) [a] y w).nb) := by
      have hf : (newLeaf (gCfg pdf .nba grace) true s).obs = ([] : GObs) := rfl
      simp only [Leaf.learn, hf]
      rw [show (newLeaf (gCfg pdf .nba grace) true s).stats = s from rfl, hnb]
      exact lt_irrefl _
    have hv : ((newLeaf (gCfg pdf .nba grace) true s).learn (gCfg pdf .nba grace) [a] y w).votes (gCfg pdf .nba grace) [x] =
        gBayes pdf (bump s y w) (gUpdate [] y.toNat a w) [x] := by
      show (if _ > _ then _ else _) = _
      rw [if_neg hc]
      rfl
    rw [hv]
    exact hb

/-! ### Examples -/

/-- Densities of observers whose values of a class are all equal. -/
def toyPdf (e : Est) (v : ℚ) : ℚ := if e.variance = 0 then degeneratePdf e v else 1

/-- A row; a leaf of weight 2 is split at 2 by class. -/
def knownEv (x : ℚ) (y : Int) : Ev GObs :=
  ⟨[x], y, 1, true, fun l => if l.stats = [(1, 1), (2, 1)] then .split (.num ⟨0, 2, true⟩) [[(1, 1)], [(2, 1)]] else .keep id, []⟩

theorem knownEv_ok (x : ℚ) (y : Int) (hy : 0 ≤ y) : (knownEv x y).Ok 1 ∧ (knownEv x y).Fair ∧ (knownEv x y).Filled ∧
    0 ≤ (knownEv x y).y ∧ 0 < (knownEv x y).w := by
  refine ⟨⟨rfl, fun l => ?_⟩, ?_, ?_, hy, by show (0 : ℚ) < 1; decide +kernel⟩
  · simp only [knownEv]
    by_cases h : l.stats = [(1, 1), (2, 1)]
    · rw [if_pos h]; exact ⟨by decide, by decide, rfl⟩
    · rw [if_neg h]; trivial
  · intro l t ds h
    simp only [knownEv] at h
    by_cases hl : l.stats = [(1, 1), (2, 1)]
    · rw [if_pos hl] at h
      cases h
      rw [hl]
      simp [SDict.Sorted]
    · rw [if_neg hl] at h; cases h
  · intro l t ds h
    simp only [knownEv] at h
    by_cases hl : l.stats = [(1, 1), (2, 1)]
    · rw [if_pos hl] at h
      cases h
      simp
    · rw [if_neg hl] at h; cases h

theorem gBayes_plain (kind : Kind) (grace : ℚ) : (gCfg toyPdf kind grace).Plain := by
  intro s o x h
  show _ ∨ gBayes toyPdf s o x = _
  by_cases h0 : s = [] ∨ total s = 0
  · right; unfold gBayes; rw [if_pos h0]
  · left
    show (gBayes toyPdf s o x).map Prod.fst = _ ∧ ∀ q ∈ gBayes toyPdf s o x, _
    have hp : ∀ e v, 0 ≤ toyPdf e v := by
      intro e v; unfold toyPdf degeneratePdf; split_ifs <;> decide +kernel
    unfold gBayes
    rw [if_neg h0]
    refine ⟨by simp [Function.comp_def], fun q hq => ?_⟩
    obtain ⟨q', hq', rfl⟩ := List.mem_map.1 hq
    have ht : 0 ≤ total s := List.sum_nonneg fun v hv => by
      obtain ⟨q, hq, rfl⟩ := List.mem_map.1 hv; exact h q hq
    refine mul_nonneg (div_nonneg (h _ hq') ht) ?_
    by_cases ho : o = []
    · rw [if_pos ho]; decide +kernel
    · rw [if_neg ho]
      cases o.lookup q'.1.toNat with
      | none => exact le_refl _
      | some r => exact hp _ _

/-- C207: trained on classes 1 and 2 only, a tree of adaptive leaves answers class 0 right after its split
(the first branch has class 1 only); with majority leaves it answers class 1. -/
theorem C207_class_zero_violated :
    ((run (gCfg toyPdf .nba 2) none [knownEv 1 1, knownEv 3 2, knownEv 0 1]).toOption.bind fun r =>
      (predict (gCfg toyPdf .nba 2) r none [[1], [0]]).toOption) = some [0, 1] ∧
    ((run (gCfg toyPdf .mc 2) none [knownEv 1 1, knownEv 3 2, knownEv 0 1]).toOption.bind fun r =>
      (predict (gCfg toyPdf .mc 2) r none [[1], [0]]).toOption) = some [1, 1] := by
  decide +kernel

end Verif.Trees.HL
