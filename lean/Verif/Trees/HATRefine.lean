import Verif.Trees.HATSafe

/-!
Without detected changes the Hoeffding adaptive tree grows as the Hoeffding tree (C169).
-/

namespace Verif.Trees.HA

open Verif.Trees Verif.Trees.HL

variable {O D : Type}

/-! ### Specification -/

mutual
/-- The main tree as a Hoeffding tree: without detectors and alternate trees. -/
def N.erase : N O D → T O
  | .leaf l _ => .leaf l
  | .split t s _ _ kids => .split t s kids.erase
/-- See `N.erase`. -/
def K.erase : K O D → F O
  | .nil => .nil
  | .cons j t rest => .cons j t.erase rest.erase
end

/-- The same instance given to a Hoeffding tree whose memory management changes nothing and
whose split decisions are the same (none at a pure leaf, no attributes removed). -/
def Ev.toHT (e : Ev O) : HL.Ev O :=
  { x := e.x, y := e.y, w := e.w, growth := true, memory := []
    choose := fun l => if EF.isPure l.stats then .keep id else match e.choose l with
      | .keep _ => .keep id
      | c => c }

/-! ### Proofs -/

/-- A new leaf for an unseen category. -/
def sprout (cfg : Cfg O) (e : HL.Ev O) (s : Stats) (kids : F O) : Test → T O
  | .multi m =>
    match xget e.x m.att with
    | .error _ => .split (.multi m) s kids
    | .ok v =>
      match m.addBranch v with
      | .error _ => .split (.multi m) s kids
      | .ok (id, m') => .split (.multi m') s (kids.snoc id (.leaf ((newLeaf cfg true []).learn cfg e.x e.y e.w)))
  | t => .split t s kids

mutual
/-- What training does to a Hoeffding tree, followed from the root. -/
def grow (cfg : Cfg O) (e : HL.Ev O) : T O → T O
  | .leaf l => HL.attempt cfg e (l.learn cfg e.x e.y e.w)
  | .split t s kids =>
    match t.branch e.x with
    | .error _ => .split t s kids
    | .ok b => if b ≥ 0 then .split t s (growF cfg e kids b.toNat) else sprout cfg e s kids t
/-- See `grow`. -/
def growF (cfg : Cfg O) (e : HL.Ev O) : F O → Nat → F O
  | .nil, _ => .nil
  | .cons j t rest, b => if b = j then .cons j (grow cfg e t) rest else .cons j t (growF cfg e rest b)
end

mutual
theorem grow_at (cfg : Cfg O) (e : HL.Ev O) (n : Nat) (hx : e.x.length = n) (t : T O) (h : t.WF n) (pre : Path) :
    ∃ q s, t.filter e.x pre = .ok (.node (pre ++ q)) ∧ t.get q = some s ∧ s.WF n ∧
      ((∃ l, s = .leaf l) ∨ ∃ m st kids, s = .split (.multi m) st kids ∧ (Test.multi m).branch e.x = .ok (-1)) ∧
      t.modify (fun _ => grow cfg e s) q = grow cfg e t := by
  match t with
  | .leaf l => exact ⟨[], .leaf l, by simp [T.filter], rfl, trivial, .inl ⟨l, rfl⟩, by simp [T.modify]⟩
  | .split t st kids =>
    obtain ⟨k, h1, h2⟩ := h
    rcases Test.branch_ok h1 e.x hx with ⟨b, hb, hbr⟩ | ⟨m, rfl, hbr⟩
    · obtain ⟨q, s, f1, f2, f3, f4, f5⟩ := growF_at cfg e n hx kids b pre 0 k h2 (by omega) hb
      refine ⟨b :: q, s, ?_, ?_, f3, f4, ?_⟩
      · rw [T.filter, hbr]
        simp only [ge_iff_le, Int.natCast_nonneg, if_true, Int.toNat_natCast, f1]
        simp
      · simpa only [T.get] using f2
      · rw [T.modify, f5, grow]
        simp only [hbr, ge_iff_le, Int.natCast_nonneg, if_true, Int.toNat_natCast]
    · refine ⟨[], .split (.multi m) st kids, ?_, rfl, ⟨k, h1, h2⟩, .inr ⟨m, st, kids, rfl, hbr⟩, by simp [T.modify]⟩
      rw [T.filter, hbr]
      simp
theorem growF_at (cfg : Cfg O) (e : HL.Ev O) (n : Nat) (hx : e.x.length = n) (kids : F O) (b : Nat) (pre : Path)
    (i k : Nat) (h : kids.WFfrom n i k) (h1 : i ≤ b) (h2 : b < k) :
    ∃ q s, kids.filter e.x b pre = .ok (.node (pre ++ [b] ++ q)) ∧ kids.get b q = some s ∧ s.WF n ∧
      ((∃ l, s = .leaf l) ∨ ∃ m st kids', s = .split (.multi m) st kids' ∧ (Test.multi m).branch e.x = .ok (-1)) ∧
      kids.modify (fun _ => grow cfg e s) b q = growF cfg e kids b := by
  match kids with
  | .nil => have : i = k := h; omega
  | .cons j t rest =>
    obtain ⟨rfl, ht, hr⟩ := h
    by_cases e' : b = j
    · subst e'
      obtain ⟨q, s, f1, f2, f3, f4, f5⟩ := grow_at cfg e n hx t ht (pre ++ [b])
      exact ⟨q, s, by rw [F.filter, if_pos rfl, f1], by rw [F.get, if_pos rfl, f2], f3, f4,
        by rw [F.modify, if_pos rfl, growF, if_pos rfl, f5]⟩
    · obtain ⟨q, s, f1, f2, f3, f4, f5⟩ := growF_at cfg e n hx rest b pre (j + 1) k hr (by omega) h2
      exact ⟨q, s, by rw [F.filter, if_neg e', f1], by rw [F.get, if_neg e', f2], f3, f4,
        by rw [F.modify, if_neg e', growF, if_neg e', f5]⟩
end

theorem step_grow (cfg : Cfg O) (e : HL.Ev O) (n : Nat) (hx : e.x.length = n) (hm : e.memory = []) (root : Option (T O))
    (h : (root.getD (.leaf (newLeaf cfg true []))).WF n) :
    HL.step cfg root e = .ok (grow cfg e (root.getD (.leaf (newLeaf cfg true [])))) := by
  obtain ⟨q, s, f1, f2, f3, f4, f5⟩ := grow_at cfg e n hx _ h []
  unfold HL.step
  rw [List.nil_append] at f1
  simp only [f1, f2, hm, manage, List.foldl_nil]
  rcases f4 with ⟨l, rfl⟩ | ⟨m, st, kids, rfl, hbr⟩
  · simp only [← f5, grow]
  · obtain ⟨k, k1, k2⟩ := f3
    obtain ⟨v, m', g1, g2, _⟩ := addBranch_ok k1 e.x hx hbr
    simp only [g1, g2, ← f5]
    rw [grow]
    simp only [hbr]
    rw [if_neg (by omega)]
    simp only [sprout, g1, g2]

theorem newKids_erase (cfg : HCfg O D) (i : Nat) (ds : List Stats) : (newKids cfg i ds).erase = HL.newKids cfg.lcfg i ds := by
  induction ds generalizing i with
  | nil => rfl
  | cons d ds ih => simp only [newKids, HL.newKids, K.erase, N.erase, ih]; rfl

theorem K.snoc_erase (kids : K O D) (i : Nat) (t : N O D) : (kids.snoc i t).erase = kids.erase.snoc i t.erase := by
  induction kids using K.rec (motive_1 := fun _ => True) with
  | leaf | split => trivial
  | nil => rfl
  | cons j u rest _ ih => simp only [K.snoc, K.erase, F.snoc, ih]

mutual
theorem N.erase_WF (n : Nat) (r : N O D) (h : r.WF n) : r.erase.WF n := by
  match r with
  | .leaf l d => trivial
  | .split t s d alt kids =>
    obtain ⟨_, k, h1, h2⟩ := h
    exact ⟨k, h1, K.erase_WF n kids 0 k h2⟩
theorem K.erase_WF (n : Nat) (kids : K O D) (i k : Nat) (h : kids.WFfrom n i k) : kids.erase.WFfrom n i k := by
  match kids with
  | .nil => exact h
  | .cons j t rest => exact ⟨h.1, N.erase_WF n t h.2.1, K.erase_WF n rest (i + 1) k h.2.2⟩
end

theorem leafLearn_erase (cfg : HCfg O D) (hb : cfg.boot = false) (e : Ev O) (hp : ∀ l, e.choose l ≠ .prune)
    (attached : Bool) (k : Nat) (l : Leaf O) (d : D) (ha : l.active = true) :
    (leafLearn cfg e attached k l d).1.node.erase = HL.attempt cfg.lcfg e.toHT (l.learn cfg.lcfg e.x e.y e.w) := by
  unfold leafLearn
  have hw : bootWeight cfg.boot k e.w = e.w := by simp [bootWeight, hb]
  rw [hw]
  have ha' : (l.learn cfg.lcfg e.x e.y e.w).active = true := ha
  generalize l.learn cfg.lcfg e.x e.y e.w = l' at ha'
  generalize cfg.det.add d _ = d'
  unfold attempt HL.attempt
  by_cases h1 : total l'.stats - l'.last ≥ cfg.base.grace
  · have hc0 : e.toHT.growth = true ∧ l'.active = true ∧ total l'.stats - l'.last ≥ cfg.lcfg.grace := ⟨rfl, ha', h1⟩
    simp only [if_pos h1, if_pos hc0]
    by_cases h2 : EF.isPure l'.stats = true
    · simp only [Ev.toHT, if_pos h2, Out.node, N.erase, id_eq]
    · simp only [Ev.toHT, if_neg h2]
      cases hc : e.choose l' with
      | keep f => simp only [Out.node, N.erase, id_eq]
      | prune => exact absurd hc (hp l')
      | split t ds => simp only [Out.node, N.erase, newKids_erase]
  · have hc0 : ¬ (e.toHT.growth = true ∧ l'.active = true ∧ total l'.stats - l'.last ≥ cfg.lcfg.grace) := fun h => h1 h.2.2
    simp only [if_neg h1, if_neg hc0]
    rfl

/-- A new leaf attempts no split at its first instance. -/
theorem fresh_attempt (cfg : Cfg O) (e : HL.Ev O) (hw : e.w < cfg.grace) :
    HL.attempt cfg e ((newLeaf cfg true []).learn cfg e.x e.y e.w) =
      .leaf ((newLeaf cfg true []).learn cfg e.x e.y e.w) := by
  unfold HL.attempt
  rw [if_neg]
  rintro ⟨_, _, h⟩
  have : total ((newLeaf cfg true []).learn cfg e.x e.y e.w).stats - ((newLeaf cfg true []).learn cfg e.x e.y e.w).last = e.w := by
    simp [newLeaf, Leaf.learn, total, bump, SDict.alter]
  rw [this] at h
  exact absurd hw (not_lt.mpr h)

mutual
theorem N.learn_erase (cfg : HCfg O D) (hstop : cfg.stop = false) (hb : cfg.boot = false) (hq : cfg.Quiet) (e : Ev O)
    (n : Nat) (he : e.Ok n) (hp : ∀ l, e.choose l ≠ .prune) (hw : e.w < cfg.base.grace) (attached : Bool)
    (depth : Nat) (r : N O D) (h : r.WF n) (hn : r.NoAlt) :
    ∃ r' c, r.learn cfg e attached depth = .ok (r', c) ∧ r'.erase = grow cfg.lcfg e.toHT r.erase := by
  match r with
  | .leaf l d =>
    exact ⟨_, _, by rw [N.learn, if_pos (show l.active = true from h)], leafLearn_erase cfg hb e hp attached _ l d h⟩
  | .split t s d alt kids =>
    have hn1 : alt = none := hn.1
    subst hn1
    obtain ⟨halt, k, h1, h2⟩ := h
    obtain ⟨p, hpp⟩ := N.predicted_ok cfg n e.x he.1 (.split t s d none kids) ⟨halt, k, h1, h2⟩
    rcases Test.branch_ok h1 e.x he.1 with ⟨b, hb', hbr⟩ | ⟨m, rfl, hbr⟩
    · obtain ⟨kids', c3, g1, g2⟩ := K.learn_erase cfg hstop hb hq e n he hp hw attached (depth + 1) kids b 0 k h2 hn.2
        (by omega) hb'
      have hg : (N.split t s d none kids).learn cfg e attached depth =
          .ok (.split t s (cfg.det.add d (decide (e.y ≠ p))) none kids', (Cnt.add {} {}).add c3) := by
        rw [N.learn]
        simp only [hpp, quiet_react cfg hq, reacted, learnAlt, hbr, Option.isNone_none, Bool.and_true]
        rw [if_pos (by omega), Int.toNat_natCast, g1]
        rfl
      refine ⟨_, _, hg, ?_⟩
      rw [N.erase, N.erase, g2, grow]
      simp only [Ev.toHT, hbr, ge_iff_le, Int.natCast_nonneg, if_true, Int.toNat_natCast]
    · obtain ⟨v, m', g1, g2, g3⟩ := addBranch_ok h1 e.x he.1 hbr
      have hg : (N.split (.multi m) s d none kids).learn cfg e attached depth =
          .ok (.split (.multi m') s (cfg.det.add d (decide (e.y ≠ p))) none
            (kids.snoc k (leafLearn cfg e attached (e.draw (depth + 1) false) (newLeaf cfg.base true []) cfg.det.new).1.node),
            ((Cnt.add {} {}).add { actives := 1 }).add
              (leafLearn cfg e attached (e.draw (depth + 1) false) (newLeaf cfg.base true []) cfg.det.new).2) := by
        rw [N.learn]
        simp only [hpp, quiet_react cfg hq, reacted, learnAlt, hbr, Option.isNone_none, Bool.and_true]
        rw [if_neg (by omega)]
        simp only [g1, g2]
        rfl
      refine ⟨_, _, hg, ?_⟩
      rw [N.erase, N.erase, K.snoc_erase, leafLearn_erase cfg hb e hp _ _ _ _ rfl]
      have := fresh_attempt cfg.lcfg e.toHT hw
      rw [show HL.attempt cfg.lcfg e.toHT ((newLeaf cfg.base true []).learn cfg.lcfg e.x e.y e.w) =
        .leaf ((newLeaf cfg.lcfg true []).learn cfg.lcfg e.x e.y e.w) from this, grow]
      simp only [Ev.toHT, hbr]
      rw [if_neg (by omega)]
      simp only [sprout, g1, g2]
theorem K.learn_erase (cfg : HCfg O D) (hstop : cfg.stop = false) (hb : cfg.boot = false) (hq : cfg.Quiet) (e : Ev O)
    (n : Nat) (he : e.Ok n) (hp : ∀ l, e.choose l ≠ .prune) (hw : e.w < cfg.base.grace) (attached : Bool)
    (depth : Nat) (kids : K O D) (b i k : Nat) (h : kids.WFfrom n i k) (hn : kids.NoAlt) (h1 : i ≤ b) (h2 : b < k) :
    ∃ kids' c, kids.learn cfg e attached depth b = .ok (kids', c) ∧ kids'.erase = growF cfg.lcfg e.toHT kids.erase b := by
  match kids with
  | .nil => have : i = k := h; omega
  | .cons j t rest =>
    obtain ⟨rfl, ht, hr⟩ := h
    by_cases e' : b = j
    · obtain ⟨t', c, g1, g2⟩ := N.learn_erase cfg hstop hb hq e n he hp hw attached depth t ht hn.1
      exact ⟨.cons j t' rest, c, by rw [K.learn, if_pos e', g1], by rw [K.erase, K.erase, growF, if_pos e', g2]⟩
    · obtain ⟨rest', c, g1, g2⟩ := K.learn_erase cfg hstop hb hq e n he hp hw attached depth rest b (j + 1) k hr hn.2
        (by omega) h2
      exact ⟨.cons j t rest', c, by rw [K.learn, if_neg e', g1], by rw [K.erase, K.erase, growF, if_neg e', g2]⟩
end

/-- C169: if the detectors report no change, bootstrap sampling is off, no leaf is pruned and
single instances weigh less than the grace period, the main tree is after every training
sequence the Hoeffding tree (with adaptive naive Bayes leaves) trained on the same sequence
with the same split decisions, in structure, class weights, observers and the counters of
its leaves.  The two are equal after every prefix of the sequence as well. -/
theorem C169_refines_hoeffding_tree (cfg : HCfg O D) (hstop : cfg.stop = false) (hb : cfg.boot = false) (hq : cfg.Quiet)
    (n : Nat) (es : List (Ev O)) (he : ∀ e ∈ es, e.Ok n ∧ (∀ l, e.choose l ≠ .prune) ∧ e.w < cfg.base.grace) :
    ∃ h : Tree O D, run cfg {} es = .ok h ∧
      HL.run { cfg.base with kind := .nba } none (es.map Ev.toHT) = .ok (h.root.map N.erase) := by
  have key : ∀ (es : List (Ev O)) (h : Tree O D), h.Inv cfg n →
      (∀ e ∈ es, e.Ok n ∧ (∀ l, e.choose l ≠ .prune) ∧ e.w < cfg.base.grace) →
      ∃ h', run cfg h es = .ok h' ∧ HL.run cfg.lcfg (h.root.map N.erase) (es.map Ev.toHT) = .ok (h'.root.map N.erase) := by
    intro es
    induction es with
    | nil => intro h _ _; exact ⟨h, rfl, rfl⟩
    | cons e es ih =>
      intro h hi he
      obtain ⟨e1, e2, e3⟩ := he e List.mem_cons_self
      obtain ⟨h1, r1, s1, s2, s3⟩ := step_inv cfg hstop n h hi e e1
      obtain ⟨h2, k1, k2⟩ := ih h1 s3 (fun e' h' => he e' (List.mem_cons_of_mem _ h'))
      refine ⟨h2, by simp only [run, s1, k1], ?_⟩
      have hr : (h.root.getD (.leaf (newLeaf cfg.base true []) cfg.det.new)).WF n ∧
          (h.root.getD (.leaf (newLeaf cfg.base true []) cfg.det.new)).NoAlt := by
        cases hh : h.root with
        | none => exact ⟨rfl, trivial⟩
        | some r => exact ⟨hi.1 r hh, ((hi.2 hq).1 r hh).1⟩
      obtain ⟨r', c, g1, g2⟩ := N.learn_erase cfg hstop hb hq e n e1 e2 e3 true 0 _ hr.1 hr.2
      have hs : step cfg h e = .ok ⟨some r', (if h.root.isSome then h.cnt else { h.cnt with actives := 1 }).add c, h.seen + e.w⟩ := by
        simp only [step, WF_inactive n _ hr.1, g1]
      rw [hs, Except.ok.injEq] at s1
      subst s1
      have hroot : (h.root.map N.erase).getD (.leaf (newLeaf cfg.lcfg true [])) =
          (h.root.getD (.leaf (newLeaf cfg.base true []) cfg.det.new)).erase := by
        cases h.root <;> rfl
      have hst := step_grow cfg.lcfg e.toHT n e1.1 rfl (h.root.map N.erase) (by rw [hroot]; exact N.erase_WF n _ hr.1)
      rw [hroot, ← g2] at hst
      simp only [List.map_cons, HL.run, hst]
      exact k2
  obtain ⟨h, h1, h2⟩ := key es {} ⟨by simp, fun _ => ⟨by simp, fun _ => rfl⟩⟩ he
  exact ⟨h, h1, h2⟩

/-- Detectors that never report a change. -/
def calm : HCfg (List (List ℚ × Int × ℚ)) (List Bool) :=
  { logCfg false with det := { tally with change := fun _ => false } }

example : calm.Quiet ∧ calm.stop = false ∧ calm.boot = false ∧
    (∀ e ∈ takeover, (∀ l, e.choose l ≠ .prune) ∧ e.w < calm.base.grace) := by
  have hs : ∀ v l, splitAt v l ≠ .prune := by intro v l; simp [splitAt]
  refine ⟨fun _ _ => rfl, rfl, rfl, ?_⟩
  intro e he
  simp only [takeover, List.mem_append, List.mem_cons, List.not_mem_nil, or_false, List.mem_replicate] at he
  rcases he with (((he | he) | he) | he) | he
  · rcases he with rfl | rfl <;> exact ⟨fun l => hs _ l, by decide +kernel⟩
  · rw [he.2]; exact ⟨fun l => by simp [inst], by decide +kernel⟩
  · rw [he.2]; exact ⟨fun l => by simp [inst], by decide +kernel⟩
  · rw [he.2]; exact ⟨fun l => by simp [inst], by decide +kernel⟩
  · rw [he]; exact ⟨fun l => hs _ l, by decide +kernel⟩

/-- In that run the root splits twice deep; with an alarm the trees differ. -/
example : ((run calm {} takeover).toOption.bind counts) = some ((3, 2), (3, 2)) ∧
    ((run calm {} takeover).toOption.map rootTest) = some (some 5) ∧
    ((run (logCfg false) {} takeover).toOption.map rootTest) = some (some 3) := by decide +kernel

end Verif.Trees.HA
