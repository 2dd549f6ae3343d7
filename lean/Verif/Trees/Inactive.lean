import Verif.Trees.Predict

/-!
Deactivated leaves of the Hoeffding tree (`trees/hoeffding_tree.py` 303-353, 633-748,
`trees/_nodes/htc_nodes.py` 26-31); C148.  Continues `Trees/Learn.lean`.
-/

namespace Verif.Trees.HL

open Verif.Trees

variable {O : Type}

mutual
theorem T.get_modify_leaf_eq (f : T O → T O) (t : T O) (p q : Path) (l : Leaf O) (h : t.get q = some (.leaf l))
    (hf : ∀ q' s, q = p ++ q' → t.get p = some s → (f s).get q' = some (.leaf l)) :
    (t.modify f p).get q = some (.leaf l) := by
  match t, p with
  | t, [] => simpa [T.modify] using hf q t rfl (by simp [T.get])
  | .leaf a, i :: p => exact h
  | .split m st kids, i :: p =>
    match q with
    | [] => simp [T.get] at h
    | j :: q =>
      simp only [T.get, T.modify] at h ⊢
      exact F.get_modify_leaf_eq f kids i j p q l h (fun q' s hij hq hs =>
        hf q' s (by rw [hij, hq]; rfl) (by simpa only [T.get] using hs))
theorem F.get_modify_leaf_eq (f : T O → T O) (kids : F O) (i j : Nat) (p q : Path) (l : Leaf O)
    (h : kids.get j q = some (.leaf l))
    (hf : ∀ q' s, j = i → q = p ++ q' → kids.get i p = some s → (f s).get q' = some (.leaf l)) :
    (kids.modify f i p).get j q = some (.leaf l) := by
  match kids with
  | .nil => simp [F.get] at h
  | .cons a t rest =>
    rw [F.get] at h
    rw [F.modify]
    by_cases e1 : i = a
    · rw [if_pos e1, F.get]
      by_cases e2 : j = a
      · rw [if_pos e2] at h ⊢
        exact T.get_modify_leaf_eq f t p q l h (fun q' s hq hs =>
          hf q' s (by rw [e2, e1]) hq (by rw [F.get, if_pos e1, hs]))
      · rw [if_neg e2] at h ⊢
        exact h
    · rw [if_neg e1, F.get]
      by_cases e2 : j = a
      · rw [if_pos e2] at h ⊢
        exact h
      · rw [if_neg e2] at h ⊢
        exact F.get_modify_leaf_eq f rest i j p q l h (fun q' s hij hq hs =>
          hf q' s hij hq (by rw [F.get, if_neg e1, hs]))
end

theorem setActive_get (cfg : Cfg O) (a : Bool) (r : T O) (p q : Path) (l : Leaf O)
    (h : r.get q = some (.leaf l)) :
    (r.modify (setActive cfg a) p).get q =
      some (.leaf (if p = q ∧ l.active ≠ a then newLeaf cfg a l.stats else l)) := by
  by_cases hpq : p = q
  · subst hpq
    rw [T.get_modify_self _ r p _ h, setActive]
    by_cases ha : l.active = a
    · rw [if_pos ha, if_neg (by simp [ha])]
    · rw [if_neg ha, if_pos ⟨rfl, ha⟩]
  · rw [if_neg (by simp [hpq])]
    refine T.get_modify_leaf_eq _ r p q l h ?_
    intro q' s hq hs
    have hg : s.get q' = some (.leaf l) := by rw [← T.get_append r p q' s hs, ← hq, h]
    cases s with
    | split t st kids => exact hg
    | leaf l0 =>
      obtain ⟨rfl, rfl⟩ := T.get_leaf_nil hg
      simp only [List.append_nil] at hq
      exact absurd hq.symm hpq

theorem manage_get_eq (cfg : Cfg O) (m : List (Path × Bool)) (r : T O) (q : Path) (l : Leaf O)
    (h : r.get q = some (.leaf l)) (hm : ∀ a ∈ m, a.1 = q → a.2 = l.active) :
    (manage cfg r m).get q = some (.leaf l) := by
  induction m generalizing r with
  | nil => exact h
  | cons a m ih =>
    refine ih _ ?_ (fun b hb => hm b (by simp [hb]))
    rw [setActive_get cfg a.2 r a.1 q l h, if_neg]
    rintro ⟨h1, h2⟩
    exact h2 (hm a (by simp) h1).symm

/-- What one training step does to a leaf, before the memory manager's turn, as long as
it is not the leaf of the instance. -/
theorem step_other (cfg : Cfg O) (n : Nat) (r : T O) (hr : r.WF n) (e : Ev O) (he : e.Ok n) (q : Path)
    (l : Leaf O) (hq : r.get q = some (.leaf l)) (hne : routed cfg (some r) e.x ≠ some q) :
    ∃ r', step cfg (some r) e = .ok (manage cfg r' e.memory) ∧ r'.WF n ∧ r'.get q = some (.leaf l) := by
  obtain ⟨r', p, s, h1, h2, h3, h4, h5⟩ := step_spec cfg n (some r) (by rintro _ ⟨⟩; exact hr) e he
  refine ⟨r', h1, h2, ?_⟩
  have hp : routed cfg (some r) e.x = some p := by simp only [routed, h3]
  have hne : q ≠ p := by rintro rfl; exact hne hp
  simp only [Option.getD_some] at h3 h4 h5
  rcases h5 with ⟨l0, rfl, rfl⟩ | ⟨m, m', st, kids, id, rfl, rfl⟩
  · refine T.get_modify_leaf_eq _ r p q l hq (fun q' s hqp hs => ?_)
    rw [h4] at hs
    cases hs
    have := T.get_append r p q' _ h4
    rw [← hqp, hq] at this
    obtain ⟨rfl, _⟩ := T.get_leaf_nil this.symm
    simp only [List.append_nil] at hqp
    exact absurd hqp hne
  · refine T.get_modify_leaf_eq _ r p q l hq (fun q' s hqp hs => ?_)
    have := T.get_append r p q' _ h4
    rw [← hqp, hq] at this
    cases q' with
    | nil => simp [T.get] at this
    | cons i q' =>
      simp only [T.get] at this ⊢
      exact F.get_snoc kids i id _ _ q' this.symm

/-- What one training step does to the leaf of the instance, before the memory
manager's turn. -/
theorem step_own (cfg : Cfg O) (n : Nat) (r : T O) (hr : r.WF n) (e : Ev O) (he : e.Ok n) (q : Path)
    (l : Leaf O) (hq : r.get q = some (.leaf l)) (hp : routed cfg (some r) e.x = some q) :
    ∃ r', step cfg (some r) e = .ok (manage cfg r' e.memory) ∧ r'.WF n ∧
      r'.get q = some (attempt cfg e (l.learn cfg e.x e.y e.w)) := by
  obtain ⟨r', p, s, h1, h2, h3, h4, h5⟩ := step_spec cfg n (some r) (by rintro _ ⟨⟩; exact hr) e he
  refine ⟨r', h1, h2, ?_⟩
  have hp' : routed cfg (some r) e.x = some p := by simp only [routed, h3]
  rw [hp] at hp'
  cases hp'
  simp only [Option.getD_some] at h3 h4 h5
  rw [hq] at h4
  cases h4
  rcases h5 with ⟨l0, h, rfl⟩ | ⟨m, m', st, kids, id, h, _⟩
  · cases h
    exact T.get_modify_self _ r q _ hq
  · cases h

/-- **C148.** A deactivated leaf that the memory manager leaves alone stays a deactivated
leaf whatever is learned: the instances routed to it add their weight to their class,
nothing else in it changes, it never splits, and it answers with its class weights. -/
theorem C148_deactivated_leaf (cfg : Cfg O) (n : Nat) (r : T O) (hr : r.WF n) (e : Ev O) (he : e.Ok n)
    (q : Path) (l : Leaf O) (hq : r.get q = some (.leaf l)) (ha : l.active = false)
    (hm : ∀ a ∈ e.memory, a.1 = q → a.2 = false) :
    ∃ r', step cfg (some r) e = .ok r' ∧ r'.WF n ∧
      r'.get q = some (.leaf { l with
        stats := if routed cfg (some r) e.x = some q then bump l.stats e.y e.w else l.stats }) ∧
      ∀ x, routed cfg (some r) x = some q → votesAt cfg (some r) x = .ok l.stats := by
  have hv : ∀ x, routed cfg (some r) x = some q → votesAt cfg (some r) x = .ok l.stats := by
    intro x hx
    unfold routed at hx
    simp only [Option.getD_some] at hx
    unfold votesAt
    simp only
    cases hf : r.filter x [] with
    | error err => rw [hf] at hx; cases hx
    | ok f =>
      rw [hf] at hx
      cases f with
      | missing p b => cases hx
      | node p =>
        cases hx
        simp only [hq, Leaf.votes, ha]
        rfl
  by_cases hp : routed cfg (some r) e.x = some q
  · obtain ⟨r', h1, h2, h3⟩ := step_own cfg n r hr e he q l hq hp
    refine ⟨_, h1, manage_WF cfg n _ r' h2, ?_, hv⟩
    rw [if_pos hp]
    have hl : l.learn cfg e.x e.y e.w = { l with stats := bump l.stats e.y e.w } := by
      unfold Leaf.learn
      simp [ha]
    have hatt : attempt cfg e (l.learn cfg e.x e.y e.w) = .leaf { l with stats := bump l.stats e.y e.w } := by
      rw [hl]
      unfold attempt
      rw [if_neg (by simp [ha])]
    rw [hatt] at h3
    exact manage_get_eq cfg e.memory r' q _ h3 (by intro a h h'; rw [hm a h h']; exact ha.symm)
  · obtain ⟨r', h1, h2, h3⟩ := step_other cfg n r hr e he q l hq hp
    refine ⟨_, h1, manage_WF cfg n _ r' h2, ?_, hv⟩
    rw [if_neg hp]
    exact manage_get_eq cfg e.memory r' q _ h3 (by intro a h h'; rw [hm a h h']; exact ha.symm)

/-- **C148.** The same over any number of instances: the leaf is still there, deactivated,
with the observers and counters it had. -/
theorem C148_stays_deactivated (cfg : Cfg O) (n : Nat) (es : List (Ev O)) (r : T O) (hr : r.WF n)
    (he : ∀ e ∈ es, e.Ok n) (q : Path) (l : Leaf O) (hq : r.get q = some (.leaf l)) (ha : l.active = false)
    (hm : ∀ e ∈ es, ∀ a ∈ e.memory, a.1 = q → a.2 = false) :
    ∃ r' s, run cfg (some r) es = .ok (some r') ∧ r'.get q = some (.leaf { l with stats := s }) ∧
      ∀ x, routed cfg (some r') x = some q → votesAt cfg (some r') x = .ok s := by
  induction es generalizing r l with
  | nil =>
    refine ⟨r, l.stats, rfl, hq, ?_⟩
    intro x hx
    unfold routed at hx
    simp only [Option.getD_some] at hx
    unfold votesAt
    simp only
    cases hf : r.filter x [] with
    | error err => rw [hf] at hx; cases hx
    | ok f =>
      rw [hf] at hx
      cases f with
      | missing p b => cases hx
      | node p =>
        cases hx
        simp only [hq, Leaf.votes, ha]
        rfl
  | cons e es ih =>
    obtain ⟨r1, h1, h2, h3, _⟩ := C148_deactivated_leaf cfg n r hr e (he e (by simp)) q l hq ha (hm e (by simp))
    obtain ⟨r', s, k1, k2, k3⟩ := ih r1 h2 (fun e' h => he e' (by simp [h])) _ h3 ha
      (fun e' h => hm e' (by simp [h]))
    refine ⟨r', s, ?_, k2, k3⟩
    unfold run
    simp only [h1, k1]

/-- **C148.** When the memory manager switches a leaf on or off, its class weights stay;
everything else starts afresh: no observations, no record of right predictions, and the
next split attempt a whole grace period away. A leaf already in that state is left as
it is. -/
theorem C148_switch (cfg : Cfg O) (n : Nat) (r : T O) (hr : r.WF n) (e : Ev O) (he : e.Ok n) (q : Path)
    (l : Leaf O) (hq : r.get q = some (.leaf l)) (hp : routed cfg (some r) e.x ≠ some q) (a : Bool)
    (hm : e.memory = [(q, a)]) :
    ∃ r' l', step cfg (some r) e = .ok r' ∧ r'.get q = some (.leaf l') ∧ l'.active = a ∧
      l'.stats = l.stats ∧ (l.active = a → l' = l) ∧
      (l.active ≠ a → l'.obs = cfg.fresh ∧ l'.mc = 0 ∧ l'.nb = 0 ∧ l'.last = (l.stats.map Prod.snd).sum) := by
  obtain ⟨r', h1, h2, h3⟩ := step_other cfg n r hr e he q l hq hp
  have hg := setActive_get cfg a r' q q l h3
  rw [hm] at h1
  refine ⟨_, _, h1, hg, ?_, ?_, ?_, ?_⟩
  · by_cases h : l.active = a
    · rw [if_neg (by simp [h])]; exact h
    · rw [if_pos ⟨rfl, h⟩]; rfl
  · by_cases h : l.active = a
    · rw [if_neg (by simp [h])]
    · rw [if_pos ⟨rfl, h⟩]; rfl
  · intro h; rw [if_neg (by simp [h])]
  · intro h; rw [if_pos ⟨rfl, h⟩]; exact ⟨rfl, rfl, rfl, rfl⟩

/-- **C148.** A leaf for which not splitting is the best choice is deactivated, with its
class weights. -/
theorem C148_pruned (cfg : Cfg O) (n : Nat) (r : T O) (hr : r.WF n) (e : Ev O) (he : e.Ok n) (q : Path)
    (l : Leaf O) (hq : r.get q = some (.leaf l)) (hp : routed cfg (some r) e.x = some q)
    (hg : e.growth = true) (ha : l.active = true)
    (hw : cfg.grace ≤ (((bump l.stats e.y e.w).map Prod.snd).sum) - l.last)
    (hc : ∀ l', e.choose l' = .prune) (hm : ∀ a ∈ e.memory, a.1 ≠ q) :
    ∃ r' l', step cfg (some r) e = .ok r' ∧ r'.get q = some (.leaf l') ∧ l'.active = false ∧
      l'.stats = bump l.stats e.y e.w := by
  obtain ⟨r', h1, h2, h3⟩ := step_own cfg n r hr e he q l hq hp
  have hatt : attempt cfg e (l.learn cfg e.x e.y e.w) = .leaf (newLeaf cfg false (bump l.stats e.y e.w)) := by
    unfold attempt
    rw [if_pos ⟨hg, ha, hw⟩, hc]
    rfl
  rw [hatt] at h3
  exact ⟨_, _, h1, manage_get_eq cfg e.memory r' q _ h3 (fun a h h' => absurd h' (hm a h)), rfl, rfl⟩

/-- Three instances: the root splits after the second, the left leaf is deactivated with
the third, and then only counts: six more instances and it has not split. -/
example : summary (run (demoCfg .mc) none ([demoEv 0 0 [], demoEv 0 1 [], demoEv 1 1 [([0], false)]] ++
      List.replicate 3 (demoEv 0 0 []) ++ List.replicate 3 (demoEv 0 1 []))) =
    some [([(0, 4), (1, 4)], false), ([(1, 1)], true)] := by decide +kernel

/-- Had it stayed active, it would have split. -/
example : (summary (run (demoCfg .mc) none ([demoEv 0 0 [], demoEv 0 1 [], demoEv 1 1 []] ++
      List.replicate 3 (demoEv 0 0 []) ++ List.replicate 3 (demoEv 0 1 [])))).map List.length ≠ some 2 := by
  decide +kernel

end Verif.Trees.HL
