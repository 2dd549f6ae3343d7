import Verif.Trees.HATRRefine

/-!
The Hoeffding adaptive tree regressor: the values that the detector of a node gets (C208, at the level of the
tree), and the tree before its first split (C261).
-/

namespace Verif.Trees.HRA

open Verif.Trees Verif.Trees.Grow Verif.Trees.EBST
open Verif.Trees.HR (Leaf Sums weight newLeaf percPredict mean)

variable {O D : Type}

/-! ### C208: nodes -/

/-- The monitor of a node. -/
def N.mon : N O D → Mon D
  | .leaf _ m => m
  | .split _ _ m _ _ => m

/-- The node is a split node. -/
def N.isSplit : N O D → Bool
  | .leaf _ _ => false
  | .split .. => true

/-- The node has seen the absolute errors `ds`. -/
def HasSeen (m : Mon D) (ds : List ℚ) : Prop := ∃ w, m.wf = some w ∧ Tracks w ds

theorem watch_score (cfg : RCfg O D) (m : Mon D) (ds : List ℚ) (h : HasSeen m ds) (d : ℚ) :
    (watch cfg m (some d)).det = cfg.det.add m.det (if ds = [] then 0 else score cfg.base.sqrt ds d) ∧
    HasSeen (watch cfg m (some d)) (ds ++ [d]) := by
  obtain ⟨w, hw, ht⟩ := h
  refine ⟨?_, (normError cfg.base.sqrt w d).2, by simp [watch, hw], tracks_step _ _ _ ht _⟩
  simp only [watch, hw]
  by_cases he : ds = []
  · subst he
    rw [if_pos rfl, normError, if_pos (by have := ht.1; simp at this; omega)]
  · rw [if_neg he, value_step _ _ _ ht _ he]

/-- C208: at a row where split attempts split nothing, every node on the path of the row gets the distance
between the target and its own prediction (that of the tree below it) as next absolute error, and passes the
score of this error among all its errors to its detector, or 0 if it is the first.  The only node without monitor
afterwards is a split node that was replaced by its alternate leaf. -/
theorem C208_node (cfg : RCfg O D) (s : Sums) (e : Ev O) (hk : e.Keeps) (depth : Nat) (n n' : N O D)
    (h : n.learn cfg s e depth = .ok n') (p : ℚ) (hp : predictOne cfg s n e.x = .ok (some p)) (ds : List ℚ)
    (hs : HasSeen n.mon ds) :
    ∃ m', m'.det = cfg.det.add n.mon.det (if ds = [] then 0 else score cfg.base.sqrt ds |e.y - p|) ∧
      HasSeen m' (ds ++ [|e.y - p|]) ∧
      (n'.isSplit = n.isSplit ∧ n'.mon = m' ∨
        ∃ t st l am kids, n = .split t st n.mon (some (l, am)) kids ∧ Lower cfg m'.det am.det am.det m'.det ∧
          n'.isSplit = false) := by
  refine ⟨watch cfg n.mon (some |e.y - p|), (watch_score cfg _ ds hs _).1, (watch_score cfg _ ds hs _).2, ?_⟩
  cases n with
  | leaf l m =>
    left
    simp only [predictOne, N.route] at hp
    simp only [N.learn, leafLearn, hp] at h
    cases hl : l.learn cfg.lcfg s (e.toLeaf (bootWeight cfg.boot (e.draw depth false) e.w) (e.init depth false)) with
    | error err => simp [hl] at h
    | ok l1 =>
      obtain ⟨f, hf⟩ := hk l1
      simp only [hl, Except.ok.injEq] at h
      subst h
      unfold attempt
      by_cases hg : weight l1.stats - l1.last ≥ cfg.base.grace
      · rw [if_pos hg, hf]; exact ⟨rfl, rfl⟩
      · rw [if_neg hg]; exact ⟨rfl, rfl⟩
  | split t st m alt kids =>
    obtain ⟨en, q, m', h1, h2, h3, h4⟩ := C210_alternate_partial cfg s e hk depth t st m alt kids n' h
    have hq : q = some (some p) := by
      simp only [predictOne, h1] at hp
      cases en with
      | leaf l =>
        simp only at hp
        simp only [endPred, hp, Except.ok.injEq] at h2
        exact h2.symm
      | stuck o =>
        cases o with
        | none => simp at hp
        | some o =>
          simp only [Except.ok.injEq] at hp
          simp only [endPred, Except.ok.injEq] at h2
          rw [← h2, hp]
      | missing => simp at hp
    rw [hq] at h3
    have h3 : m' = watch cfg m (some |e.y - p|) := h3
    simp only [N.mon]
    rw [← h3]
    rcases h4 with ⟨_, t', kids', l, am, hn, _⟩ | ⟨_, l, am, l', am', ha, hlow, hn, _⟩ |
      ⟨_, l, am, t', kids', _, _, _, hn⟩ | ⟨_, ⟨_, t', kids', hn⟩ | ⟨l, am, l', am', t', kids', _, _, _, hn, _⟩⟩
    · subst hn; exact .inl ⟨rfl, rfl⟩
    · subst hn; subst ha; exact .inr ⟨t, st, l, am, kids, rfl, hlow, rfl⟩
    · subst hn; exact .inl ⟨rfl, rfl⟩
    · subst hn; exact .inl ⟨rfl, rfl⟩
    · subst hn; exact .inl ⟨rfl, rfl⟩

/-! ### C261: specification -/

/-- The mean of the targets when row `e` counts `c e`; 0 without rows. -/
def wmean (c : Ev O → ℚ) (es : List (Ev O)) : ℚ :=
  if es = [] then 0 else (es.map fun e => e.y * c e).sum / (es.map c).sum

/-- The absolute errors of the means of the targets before each row. -/
def errsFrom (c : Ev O → ℚ) : List (Ev O) → List (Ev O) → List ℚ
  | _, [] => []
  | seen, e :: es => |e.y - wmean c seen| :: errsFrom c (seen ++ [e]) es

/-- The weight of a row times its Poisson draw, if bootstrap sampling is on. -/
def drawn (cfg : RCfg O D) (e : Ev O) : ℚ := if cfg.boot then e.w * e.draw 0 false else e.w

/-- The same, but rows drawn 0 times count as if drawn once. -/
def drawn1 (cfg : RCfg O D) (e : Ev O) : ℚ := if cfg.boot then e.w * (max 1 (e.draw 0 false) : Nat) else e.w

/-! ### Proofs -/

theorem boot_eq (cfg : RCfg O D) (e : Ev O) : bootWeight cfg.boot (e.draw 0 false) e.w = drawn1 cfg e := by
  unfold bootWeight drawn1
  by_cases hb : cfg.boot
  · rw [if_pos hb, if_pos hb]
    by_cases hk : e.draw 0 false > 0
    · rw [if_pos hk, max_eq_right]
      exact_mod_cast hk
    · rw [if_neg hk]
      have : e.draw 0 false = 0 := by omega
      simp [this]
  · rw [if_neg hb, if_neg hb]

theorem errs_snoc (c : Ev O → ℚ) (es : List (Ev O)) (e : Ev O) : ∀ seen,
    errsFrom c seen (es ++ [e]) = errsFrom c seen es ++ [|e.y - wmean c (seen ++ es)|] := by
  induction es with
  | nil => intro seen; simp [errsFrom]
  | cons a es ih =>
    intro seen
    simp only [List.cons_append, errsFrom, ih, List.append_assoc, List.nil_append]

/-- The tree after the rows `seen`. -/
def Inv (cfg : RCfg O D) (seen : List (Ev O)) (h : Reg O D) : Prop :=
  h.sums.n = (seen.map fun e => e.w).sum ∧ (seen ≠ [] → h.root ≠ none) ∧
  ∃ l m, h.root.getD (.leaf (newLeaf cfg.base true none .unset) (newMon cfg)) = .leaf l m ∧
    (seen = [] → l.stats = none) ∧
    (seen ≠ [] → ∃ st, l.stats = some st ∧ st.n = (seen.map (drawn1 cfg)).sum ∧
      st.s = (seen.map fun e => e.y * drawn1 cfg e).sum) ∧
    m.wf = some (feed cfg.base.sqrt Welford.new (errsFrom (drawn1 cfg) [] seen)).2 ∧
    m.det = (feed cfg.base.sqrt Welford.new (errsFrom (drawn1 cfg) [] seen)).1.foldl cfg.det.add cfg.det.new

theorem drawn1_pos (cfg : RCfg O D) (e : Ev O) (hw : 0 < e.w) : 0 < drawn1 cfg e := by
  unfold drawn1
  by_cases hb : cfg.boot
  · rw [if_pos hb]
    exact mul_pos hw (by exact_mod_cast lt_of_lt_of_le one_pos (le_max_left 1 (e.draw 0 false)))
  · rw [if_neg hb]; exact hw

theorem sum_drawn1_pos (cfg : RCfg O D) (es : List (Ev O)) (hw : ∀ e ∈ es, 0 < e.w) (hne : es ≠ []) :
    0 < (es.map (drawn1 cfg)).sum := by
  induction es with
  | nil => exact absurd rfl hne
  | cons e es ih =>
    have h1 := drawn1_pos cfg e (hw e List.mem_cons_self)
    rw [List.map_cons, List.sum_cons]
    by_cases he : es = []
    · subst he; simpa using h1
    · have := ih (fun a ha => hw a (List.mem_cons_of_mem _ ha)) he
      linarith

theorem pred_inv (cfg : RCfg O D) (hm : cfg.base.perceptron = false) (seen : List (Ev O)) (hw : ∀ e ∈ seen, 0 < e.w)
    (s : Sums) (l : Leaf O) (x : List ℚ) (h0 : seen = [] → l.stats = none)
    (h1 : seen ≠ [] → ∃ st, l.stats = some st ∧ st.n = (seen.map (drawn1 cfg)).sum ∧
      st.s = (seen.map fun e => e.y * drawn1 cfg e).sum) :
    leafPred cfg s l x = .ok (some (wmean (drawn1 cfg) seen)) := by
  unfold leafPred wmean
  rw [hm]
  by_cases he : seen = []
  · simp [h0 he, he]
  · obtain ⟨st, a, b, c⟩ := h1 he
    have := sum_drawn1_pos cfg seen hw he
    rw [a, if_neg he, ← b, ← c]
    rw [← b] at this
    simp [this]

theorem inv_step (cfg : RCfg O D) (hm : cfg.base.perceptron = false) (seen : List (Ev O)) (hw : ∀ e ∈ seen, 0 < e.w)
    (h h' : Reg O D) (hi : Inv cfg seen h) (e : Ev O) (hk : e.Keeps) (hs : step cfg h e = .ok h') :
    Inv cfg (seen ++ [e]) h' := by
  obtain ⟨i0, -, l, m, i1, i2, i3, i4, i5⟩ := hi
  unfold step at hs
  rw [i1] at hs
  simp only [N.learn, leafLearn, pred_inv cfg hm seen hw _ l e.x i2 i3] at hs
  cases hl : l.learn cfg.lcfg (h.sums.add e.x e.y e.w) (e.toLeaf (bootWeight cfg.boot (e.draw 0 false) e.w) (e.init 0 false)) with
  | error err => simp [hl] at hs
  | ok l1 =>
    simp only [hl, Option.map_some, Except.ok.injEq] at hs
    have hst : l1.stats = some (HR.addStat l.stats e.y (bootWeight cfg.boot (e.draw 0 false) e.w)) := by
      unfold HR.Leaf.learn at hl
      simp only [RCfg.lcfg, if_true] at hl
      split at hl
      · cases hl
      · simp only [Except.ok.injEq] at hl
        rw [← hl]; rfl
    obtain ⟨l2, hl2, hs2⟩ : ∃ l2, (attempt cfg e l1 (watch cfg m (some |e.y - wmean (drawn1 cfg) seen|))).node =
        .leaf l2 (watch cfg m (some |e.y - wmean (drawn1 cfg) seen|)) ∧ l2.stats = l1.stats := by
      obtain ⟨f, hf⟩ := hk l1
      unfold attempt
      by_cases hg : weight l1.stats - l1.last ≥ cfg.base.grace
      · rw [if_pos hg, hf]; exact ⟨_, rfl, rfl⟩
      · rw [if_neg hg]; exact ⟨_, rfl, rfl⟩
    rw [hl2] at hs
    subst hs
    refine ⟨?_, by simp, l2, _, rfl, by simp, fun _ => ⟨_, hs2.trans hst, ?_⟩, ?_, ?_⟩
    · simp only [List.map_append, List.map_cons, List.map_nil, List.sum_append, List.sum_singleton, ← i0]
      cases hx : h.sums with
      | mk => simp [Sums.add]
    · rw [boot_eq]
      by_cases he : seen = []
      · subst he
        simp [i2 rfl, HR.addStat]
      · obtain ⟨st, a, b, c⟩ := i3 he
        simp [a, HR.addStat, b, c]
    · rw [errs_snoc, feed_append]
      simp [watch, i4, feed]
    · rw [errs_snoc, feed_append]
      simp [watch, i4, i5, feed]

theorem inv_run (cfg : RCfg O D) (hm : cfg.base.perceptron = false) : ∀ (es seen : List (Ev O))
    (_ : ∀ e ∈ seen ++ es, 0 < e.w) (_ : ∀ e ∈ es, e.Keeps) (h h' : Reg O D) (_ : Inv cfg seen h)
    (_ : run cfg h es = .ok h'), Inv cfg (seen ++ es) h'
  | [], seen, _, _, h, h', hi, hr => by
    simp only [run, Except.ok.injEq] at hr
    subst hr
    simpa using hi
  | e :: es, seen, hw, hk, h, h', hi, hr => by
    rw [run] at hr
    cases hs : step cfg h e with
    | error err => simp [hs] at hr
    | ok h1 =>
      simp only [hs] at hr
      have := inv_run cfg hm es (seen ++ [e]) (by simpa using hw) (fun a ha => hk a (List.mem_cons_of_mem _ ha)) h1 h'
        (inv_step cfg hm seen (fun a ha => hw a (List.mem_append_left _ ha)) h h1 hi e (hk e List.mem_cons_self) hs) hr
      simpa using this

/-- What happens whatever the draws are. -/
theorem leaf_all (cfg : RCfg O D) (hm : cfg.base.perceptron = false) (es : List (Ev O)) (hne : es ≠ [])
    (hw : ∀ e ∈ es, 0 < e.w) (hk : ∀ e ∈ es, e.Keeps) (h : Reg O D) (hr : run cfg {} es = .ok h) :
    (∀ x, predict cfg h [x] = .ok [some (wmean (drawn1 cfg) es)]) ∧
    ∃ l m, ∃ vs : List ℚ, h.root = some (.leaf l m) ∧ m.det = vs.foldl cfg.det.add cfg.det.new ∧ vs.length = es.length ∧
      ∀ ds d ds', errsFrom (drawn1 cfg) [] es = ds ++ d :: ds' →
        vs[ds.length]? = some (if ds = [] then 0 else score cfg.base.sqrt ds d) := by
  have hi : Inv cfg [] ({} : Reg O D) :=
    ⟨rfl, by simp, _, _, rfl, fun _ => rfl, by simp, rfl, rfl⟩
  have := inv_run cfg hm es [] (by simpa using hw) hk {} h hi hr
  rw [List.nil_append] at this
  obtain ⟨i0, ir, l, m, i1, i2, i3, i4, i5⟩ := this
  have hroot : h.root = some (.leaf l m) := by
    cases hh : h.root with
    | none => exact absurd hh (ir hne)
    | some r => rw [hh] at i1; simpa using i1
  have hlen : ∀ (xs seen : List (Ev O)), (errsFrom (drawn1 cfg) seen xs).length = xs.length := by
    intro xs
    induction xs with
    | nil => intro seen; rfl
    | cons a xs ih => intro seen; simp [errsFrom, ih]
  refine ⟨fun x => ?_, l, m, _, hroot, i5, by rw [feed_length, hlen], fun ds d ds' he => ?_⟩
  · have hn : h.sums.n > 0 := by
      rw [i0]
      clear i0 ir i1 i2 i3 i4 i5 hr hk hroot hi
      induction es with
      | nil => exact absurd rfl hne
      | cons e es ih =>
        rw [List.map_cons, List.sum_cons]
        have h1 := hw e List.mem_cons_self
        by_cases he : es = []
        · subst he; simpa using h1
        · have := ih he (fun a ha => hw a (List.mem_cons_of_mem _ ha))
          linarith
    simp only [predict, hroot, hn, if_true, predictAll, predictOne, N.route, pred_inv cfg hm es hw _ l x i2 i3]
  · exact (C208_standard_score cfg.base.sqrt _).2.2 ds d ds' he

/-- C261 (partial): before the first split, with `leaf_prediction='mean'`, the tree predicts the mean of the
targets of its training rows, every row counted with its weight, times its Poisson draw if bootstrap sampling is
on; and the values its detector got are the scores of the absolute errors of these means.  Missing (and false,
see the violation): Poisson draws of 0. -/
theorem C261_leaf_partial (cfg : RCfg O D) (hm : cfg.base.perceptron = false) (es : List (Ev O)) (hne : es ≠ [])
    (hw : ∀ e ∈ es, 0 < e.w) (hk : ∀ e ∈ es, e.Keeps) (hd : cfg.boot = true → ∀ e ∈ es, 0 < e.draw 0 false)
    (h : Reg O D) (hr : run cfg {} es = .ok h) :
    (∀ x, predict cfg h [x] = .ok [some (wmean (drawn cfg) es)]) ∧
    ∃ l m, ∃ vs : List ℚ, h.root = some (.leaf l m) ∧ m.det = vs.foldl cfg.det.add cfg.det.new ∧ vs.length = es.length ∧
      ∀ ds d ds', errsFrom (drawn cfg) [] es = ds ++ d :: ds' →
        vs[ds.length]? = some (if ds = [] then 0 else score cfg.base.sqrt ds d) := by
  have heq : ∀ e ∈ es, drawn1 cfg e = drawn cfg e := by
    intro e he
    unfold drawn1 drawn
    by_cases hb : cfg.boot
    · rw [if_pos hb, if_pos hb, max_eq_right]
      exact_mod_cast hd hb e he
    · rw [if_neg hb, if_neg hb]
  have hwm : ∀ xs : List (Ev O), (∀ e ∈ xs, e ∈ es) → wmean (drawn1 cfg) xs = wmean (drawn cfg) xs := by
    intro xs hx
    unfold wmean
    rw [List.map_congr_left (fun e he => heq e (hx e he)),
      List.map_congr_left (f := fun e => e.y * drawn1 cfg e) (g := fun e => e.y * drawn cfg e)
        (fun e he => by rw [heq e (hx e he)])]
  have herr : ∀ xs seen : List (Ev O), (∀ e ∈ seen ++ xs, e ∈ es) →
      errsFrom (drawn1 cfg) seen xs = errsFrom (drawn cfg) seen xs := by
    intro xs
    induction xs with
    | nil => intro seen _; rfl
    | cons a xs ih =>
      intro seen hx
      rw [errsFrom, errsFrom, hwm seen (fun e he => hx e (List.mem_append_left _ he)), ih _ (by simpa using hx)]
  have := leaf_all cfg hm es hne hw hk h hr
  rw [hwm es (fun _ h => h), herr es [] (by simp)] at this
  exact this

/-- C261 (violated): with bootstrap sampling a row that is drawn 0 times counts as if it had been drawn once. -/
theorem C261_zero_violated (cfg : RCfg O D) (hm : cfg.base.perceptron = false) (hb : cfg.boot = true) (es : List (Ev O))
    (hne : es ≠ []) (hw : ∀ e ∈ es, 0 < e.w) (hk : ∀ e ∈ es, e.Keeps) (h : Reg O D) (hr : run cfg {} es = .ok h) (x : List ℚ) :
    predict cfg h [x] = .ok [some (wmean (fun e => e.w * (max 1 (e.draw 0 false) : Nat)) es)] := by
  have := (leaf_all cfg hm es hne hw hk h hr).1 x
  rw [this]
  have : drawn1 cfg = fun e : Ev O => e.w * ((max 1 (e.draw 0 false) : Nat) : ℚ) := by
    funext e; simp [drawn1, hb]
  rw [this]

/-- Three rows with targets 0, 6, 12 and draws `ks`, for the configuration `logCfg` of HATRSafe.lean. -/
def threeRows (ks : List Nat) : List (Ev (List (List ℚ × ℚ × ℚ))) :=
  ks.zipIdx.map fun p => ⟨[p.2, 1], 6 * p.2, 1, fun _ => .keep id, fun _ _ => p.1, fun _ _ => [0, 0, 0]⟩

example : ∀ e ∈ threeRows [1, 0, 2], 0 < e.w ∧ e.Keeps := by
  intro e he
  simp only [threeRows, List.zipIdx, List.map_cons, List.map_nil, List.mem_cons, List.not_mem_nil, or_false] at he
  rcases he with rfl | rfl | rfl <;> exact ⟨one_pos, fun _ => ⟨_, rfl⟩⟩

/-- Draws 1, 2, 1: (0 + 2 · 6 + 12) / 4.  Draws 1, 0, 2: (0 + 6 + 2 · 12) / 4 instead of 2 · 12 / 3. -/
example : let pred := fun ks => ((run { logCfg with boot := true } {} (threeRows ks)).toOption.bind fun h =>
      (predict { logCfg with boot := true } h [[5, 5]]).toOption)
    pred [1, 2, 1] = some [some 6] ∧ pred [1, 0, 2] = some [some (15/2)] ∧
    wmean (drawn { logCfg with boot := true }) (threeRows [1, 0, 2]) = 8 := by decide +kernel

/-- The monitor of a new node has seen no errors. -/
example (cfg : RCfg O D) : HasSeen (newMon cfg) [] := ⟨_, rfl, rfl, by simp⟩

end Verif.Trees.HRA
