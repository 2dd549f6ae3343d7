import Verif.Trees.HTRPerc
import Verif.Trees.MTRAdapt

/-!
C296: what one learning step of a leaf perceptron does to its answer for the row it learns.
-/

namespace Verif.Trees

open Verif.Trees.Grow

/-! ### Specification -/

/-- The learning ratio of a step: the parameter itself, or the parameter divided by
`1 + decay * weight of the leaf`. -/
def RatioOf (const : Bool) (lr decay weight ρ : ℚ) : Prop :=
  (const = true → ρ = lr) ∧ (const = false → 0 < 1 + weight * decay → ρ * (1 + weight * decay) = lr)

/-- An answer `p` moved the fraction `g` of the way to the target `y`, then shrunk towards (or stretched
from) the mean `m` by the divisor `c`. -/
def Moved (m y g c p p' : ℚ) : Prop := (p' - m) * c = (p + g * (y - p)) - m

/-! ### Proofs -/

/-- C296: a learning ratio that decays lies between 0 and the parameter and does not grow with the weight
of the leaf. -/
theorem C296_ratio (const : Bool) (lr decay n n' ρ ρ' : ℚ) (hlr : 0 ≤ lr) (hd : 0 ≤ decay) (hn : 0 ≤ n) (hnn : n ≤ n')
    (h : RatioOf const lr decay n ρ) (h' : RatioOf const lr decay n' ρ') : 0 ≤ ρ' ∧ ρ' ≤ ρ ∧ ρ ≤ lr := by
  cases const with
  | true => rw [h.1 rfl, h'.1 rfl]; exact ⟨hlr, le_rfl, le_rfl⟩
  | false =>
    have a : 0 ≤ n * decay := mul_nonneg hn hd
    have b : n * decay ≤ n' * decay := mul_le_mul_of_nonneg_right hnn hd
    have k := h.2 rfl (by linarith)
    have k' := h'.2 rfl (by linarith)
    have r : ρ = lr / (1 + n * decay) := by rw [eq_div_iff (by linarith)]; exact k
    have r' : ρ' = lr / (1 + n' * decay) := by rw [eq_div_iff (by linarith)]; exact k'
    subst r r'
    refine ⟨div_nonneg hlr (by linarith), div_le_div_of_nonneg_left hlr (by linarith) (by linarith), div_le_self hlr (by linarith)⟩

theorem ratioOf_if (const : Bool) (lr decay n : ℚ) :
    RatioOf const lr decay n (if const then lr else lr / (1 + n * decay)) := by
  constructor
  · intro h; simp [h]
  · intro h h0; simp only [h, Bool.false_eq_true, if_false]; exact div_mul_cancel₀ _ h0.ne'

namespace HR

variable {O : Type}

theorem dot_adjust (w xs zs : List ℚ) (k : ℚ) (h : w.length = xs.length) (hz : xs.length = zs.length) :
    dot (List.zipWith (· + ·) w (xs.map fun v => k * v)) zs = dot w zs + k * dot xs zs := by
  induction w generalizing xs zs with
  | nil => cases xs with
    | nil => simp [dot]
    | cons a xs => simp at h
  | cons a w ih => cases xs with
    | nil => simp at h
    | cons b xs => cases zs with
      | nil => simp at hz
      | cons z zs =>
        have := ih xs zs (by simpa using h) (by simpa using hz)
        simp only [dot, List.map_cons, List.zipWith_cons_cons, List.sum_cons] at this ⊢
        rw [this]; ring

theorem dot_div (w zs : List ℚ) (c : ℚ) : dot (w.map (· / c)) zs = dot w zs / c := by
  induction w generalizing zs with
  | nil => simp [dot]
  | cons a w ih => cases zs with
    | nil => simp [dot]
    | cons z zs =>
      have := ih zs
      simp only [dot, List.map_cons, List.zipWith_cons_cons, List.sum_cons] at this ⊢
      rw [this]; ring

theorem dot_self (xs : List ℚ) : (xs.map fun v => v * v).sum = dot xs xs := by
  unfold dot
  congr 1
  induction xs with
  | nil => rfl
  | cons a xs ih => rw [List.map_cons, List.zipWith_cons_cons, ih]

theorem floor_one' {w : ℚ} (h1 : 1 ≤ w) (h2 : w < 2) : ⌊w⌋.toNat = 1 := MT.floor_one h1 h2

/-- How much of the L1 norm an adjustment adds or removes. -/
theorem norm1_adjust (w xs : List ℚ) (k : ℚ) (h : w.length = xs.length) :
    |norm1 (List.zipWith (· + ·) w (xs.map fun v => k * v)) - norm1 w| ≤ |k| * norm1 xs := by
  induction w generalizing xs with
  | nil => cases xs with
    | nil => simp [norm1]
    | cons a xs => simp at h
  | cons a w ih => cases xs with
    | nil => simp at h
    | cons b xs =>
      have := ih xs (by simpa using h)
      simp only [norm1, List.map_cons, List.zipWith_cons_cons, List.sum_cons] at this ⊢
      have h1 : |(|a + k * b| - |a|)| ≤ |k| * |b| := by
        rw [← abs_mul]
        have := abs_abs_sub_abs_le (a + k * b) a
        rwa [add_sub_cancel_left] at this
      rw [abs_le] at this h1 ⊢
      rw [mul_add]
      constructor <;> linarith [this.1, this.2, h1.1, h1.2]

/-- C296: a single update of a leaf with a perceptron, the target varying and the tree having seen a weight above
1.  `p` and `p'` are the answers for the row before and after, `xs` the row as the perceptron sees it.  The answer
moves the fraction `ratio * |xs|²` of the way to the target, then the division of the weights by the sum of their
absolute values divides its distance from the mean target by that sum `c`.  The sum differs from that before by at most
`ratio * error * |xs|₁` (the error in units of three standard deviations). -/
theorem C296_step_partial (cfg : Cfg O) (hp : cfg.perceptron = true) (s : Sums) (e : Ev O) (l l' : Leaf O) (w xs : List ℚ)
    (hw : 1 ≤ e.w ∧ e.w < 2) (hn : 1 < s.n) (hd : 0 < sd cfg.sqrt s.yy s.y s.n) (hl : l.w = .ok w)
    (hx : normalize cfg s e.x = .ok xs) (hs : l.learn cfg s e = .ok l') (p p' : ℚ)
    (h1 : percPredict cfg s l e.x = .ok (some p)) (h2 : percPredict cfg s l' e.x = .ok (some p')) :
    ∃ ρ c, RatioOf cfg.lrConst cfg.lr cfg.decay (weight l.stats + e.w) ρ ∧ 0 < c ∧
      |c - (w.map fun v => |v|).sum| ≤ |ρ * ((e.y - p) / (3 * sd cfg.sqrt s.yy s.y s.n))| * (xs.map fun v => |v|).sum ∧
      Moved (s.y / s.n) e.y (ρ * (xs.map fun v => v * v).sum) c p p' := by
  have hst : (addStat l.stats e.y e.w).n = weight l.stats + e.w := by
    unfold addStat weight
    cases l.stats with
    | none => simp
    | some st => rfl
  set ρ := (if cfg.lrConst then cfg.lr else cfg.lr / (1 + (addStat l.stats e.y e.w).n * cfg.decay)) with hρ
  have hu : l.w ≠ .unset := by rw [hl]; simp
  unfold Leaf.learn at hs
  simp only [hp, if_true, if_neg hu, floor_one' hw.1 hw.2, ← hρ] at hs
  simp only [updateMany, updateW, hx, hl] at hs
  simp only [percPredict, hl, hx] at h1
  by_cases hlen : w.length = xs.length
  · rw [if_pos hlen] at hs h1
    simp only [Except.ok.injEq, Option.some.injEq] at h1
    generalize hw' : List.zipWith (· + ·) w (xs.map fun v => ρ * (normalizeY cfg s e.y - dot w xs) * v) = w' at hs
    have hdel : normalizeY cfg s e.y - dot w xs = (e.y - p) / (3 * sd cfg.sqrt s.yy s.y s.n) := by
      unfold normalizeY
      simp only
      rw [if_pos ⟨hn, hd⟩, ← h1, eq_div_iff (by positivity), sub_mul, div_mul_cancel₀ _ (by positivity)]
      ring
    rw [hdel] at hw'
    by_cases hc : norm1 w' = 0
    · simp only [if_pos hc, Except.ok.injEq] at hs
      subst hs
      simp [percPredict, hx] at h2
    · simp only [if_neg hc, Except.ok.injEq] at hs
      subst hs
      simp only [percPredict, hx] at h2
      by_cases hlen' : (w'.map (· / norm1 w')).length = xs.length
      · rw [if_pos hlen'] at h2
        simp only [Except.ok.injEq, Option.some.injEq] at h2
        have hc0 : 0 < norm1 w' := lt_of_le_of_ne (norm1_nonneg _) (Ne.symm hc)
        refine ⟨ρ, norm1 w', ?_, hc0, ?_, ?_⟩
        · rw [← hst]; exact ratioOf_if _ _ _ _
        · rw [← hw']; exact norm1_adjust w xs _ hlen
        · unfold Moved
          rw [← h2, dot_div, ← hw', dot_adjust w xs xs _ hlen rfl, hw', dot_self, ← h1]
          generalize hD : sd cfg.sqrt s.yy s.y s.n = D at hd h1 ⊢
          field_simp
          ring
      · rw [if_neg hlen'] at h2; simp at h2
  · rw [if_neg hlen] at hs; simp at hs

/-- C296: a perceptron of unit norm that already answers the target keeps its answer. -/
theorem C296_exact_partial (cfg : Cfg O) (hp : cfg.perceptron = true) (s : Sums) (e : Ev O) (l l' : Leaf O) (w xs : List ℚ)
    (hw : 1 ≤ e.w ∧ e.w < 2) (hn : 1 < s.n) (hd : 0 < sd cfg.sqrt s.yy s.y s.n) (hl : l.w = .ok w)
    (h0 : (w.map fun v => |v|).sum = 1)
    (hx : normalize cfg s e.x = .ok xs) (hs : l.learn cfg s e = .ok l') (p' : ℚ)
    (h1 : percPredict cfg s l e.x = .ok (some e.y)) (h2 : percPredict cfg s l' e.x = .ok (some p')) : p' = e.y := by
  obtain ⟨ρ, c, -, -, h3, h4⟩ := C296_step_partial cfg hp s e l l' w xs hw hn hd hl hx hs _ _ h1 h2
  rw [h0] at h3
  simp only [sub_self, zero_div, mul_zero, abs_zero, zero_mul, abs_nonpos_iff, sub_eq_zero] at h3
  unfold Moved at h4
  rw [h3] at h4
  linarith

/-- A root exact on the values needed below. -/
def stepRoot (v : ℚ) : ℚ := if v = 1 then 1 else if v = 36 / 25 then 6 / 5 else 0

/-- A tree with the default learning ratio 0.02 and two nominal attributes. -/
def stepCfg : Cfg Unit := ⟨true, 100, 1 / 50, 1 / 1000, true, fun _ => true, stepRoot, (), fun _ _ _ _ => ()⟩

/-- A row. -/
def stepEv (x y w : ℚ) : Ev Unit := ⟨[x, 0], y, w, [9 / 10, 0, 1 / 10], true, fun _ => .prune, fun _ => none⟩

/-- Two rows of weight 2, then one of weight 1. -/
def stepRows : List (Ev Unit) := [stepEv 0 0 2, stepEv 0 2 2]

/-- The row learnt last: attribute 2, target 3. -/
def stepLast : Ev Unit := stepEv 2 3 1

/-- The answer of the perceptrons of `r` for a row, the sums of the tree being `s`. -/
def answer (s : Sums) (r : Option (G (Leaf Unit) (Option EBST.Stat))) (x : List ℚ) : Option ℚ :=
  r.bind fun r => (predictOne stepCfg s r x).toOption.bind id

/-- C296: learning a row can move the answer for that very row away from its target, here 3, with the default learning
ratio: `predict` answers 6.7 before and 8.3 after.  It is not the sums of the tree alone that do so: with the sums after
the row, the weights before it answer 8.22. -/
theorem C296_away_violated : ∃ h h' p q p', run stepCfg {} stepRows = .ok h ∧ run stepCfg {} (stepRows ++ [stepLast]) = .ok h' ∧
    answer h.sums h.root stepLast.x = some p ∧ answer h'.sums h.root stepLast.x = some q ∧
    answer h'.sums h'.root stepLast.x = some p' ∧
    |stepLast.y - p| < |stepLast.y - p'| ∧ |stepLast.y - q| < |stepLast.y - p'| := by
  have key : (match run stepCfg {} stepRows, run stepCfg {} (stepRows ++ [stepLast]) with
    | .ok h, .ok h' => match answer h.sums h.root stepLast.x, answer h'.sums h.root stepLast.x, answer h'.sums h'.root stepLast.x with
      | some p, some q, some p' => decide (|stepLast.y - p| < |stepLast.y - p'| ∧ |stepLast.y - q| < |stepLast.y - p'|)
      | _, _, _ => false
    | _, _ => false) = true := by decide +kernel
  cases h1 : run stepCfg {} stepRows with
  | error e => rw [h1] at key; simp at key
  | ok h =>
    cases h2 : run stepCfg {} (stepRows ++ [stepLast]) with
    | error e => rw [h1, h2] at key; simp at key
    | ok h' =>
      rw [h1, h2] at key
      simp only at key
      refine ⟨h, h', ?_⟩
      generalize answer h.sums h.root stepLast.x = a at key ⊢
      generalize answer h'.sums h.root stepLast.x = b at key ⊢
      generalize answer h'.sums h'.root stepLast.x = c at key ⊢
      cases a with
      | none => simp at key
      | some p => cases b with
        | none => simp at key
        | some q => cases c with
          | none => simp at key
          | some p' => exact ⟨p, q, p', rfl, rfl, rfl, rfl, rfl, of_decide_eq_true key⟩

/-- The hypotheses of `C296_step_partial` are met: a leaf whose answer moves towards the target. -/
def stepLeaf : Leaf Unit := ⟨true, some ⟨4, 4, 8⟩, (), .ok [1 / 2, 0, -1 / 2], 0⟩

/-- Sums of four rows with targets 0, 0, 2, 2. -/
def stepSums : Sums := ⟨4, 4, 8, [0, 0], [0, 0]⟩

example : 0 < sd stepCfg.sqrt stepSums.yy stepSums.y stepSums.n ∧ 1 < stepSums.n ∧
    (normalize stepCfg stepSums [1, 0]).toOption = some [1, 0, 1] ∧
    (percPredict stepCfg stepSums stepLeaf [1, 0]).toOption = some (some 1) ∧
    ((stepLeaf.learn stepCfg stepSums (stepEv 1 3 1)).toOption.bind fun l => (percPredict stepCfg stepSums l [1, 0]).toOption) =
      some (some (27 / 25)) := by decide +kernel

end HR

namespace MT

open Verif.Trees.HR (dot norm1)

variable {O : Type} {T : Nat}

theorem zip_adjust (w xs : List ℚ) (a b : ℚ) :
    List.zipWith (fun r v => r + a * (b * v)) w xs = List.zipWith (· + ·) w (xs.map fun v => a * b * v) := by
  rw [List.zipWith_map_right]
  congr 1
  funext r v
  ring

/-- C296 for the multi-target trees: the perceptron of every target takes the same kind of step, with the standard
deviation in place of three standard deviations and with the ratio of its leaf. -/
theorem C296_targets_partial (sqrt : ℚ → ℚ) (cfg : Cfg T O (Option (Rows T))) (hc : cfg.head = percHead T sqrt) (s : Sums T)
    (e : Ev T O (Option (Rows T))) (l l' : Leaf T O (Option (Rows T))) (rows : Rows T) (j : Fin T) (w xs : List ℚ)
    (hw : 1 ≤ e.w ∧ e.w < 2) (hn : 1 < s.n) (hd : 0 < sd sqrt (s.yy j) (s.y j) s.n) (hl : l.head = some rows)
    (hj : rows j = some w) (hx : normalize sqrt s e.x = .ok xs) (hs : l.learn cfg s e = .ok l') (v v' : VN T) (p p' : ℚ)
    (h1 : cfg.head.predict s l.stats e.x l.head = .ok v) (h2 : cfg.head.predict s l'.stats e.x l'.head = .ok v')
    (hv : v j = some p) (hv' : v' j = some p') :
    ∃ ρ c, RatioOf cfg.lrConst cfg.lr cfg.decay (weight l.stats + e.w) ρ ∧ 0 < c ∧
      |c - (w.map fun v => |v|).sum| ≤ |ρ * ((e.y j - p) / sd sqrt (s.yy j) (s.y j) s.n)| * (xs.map fun v => |v|).sum ∧
      Moved (s.y j / s.n) (e.y j) (ρ * (xs.map fun v => v * v).sum) c p p' := by
  have hst : (addStat l.stats e.y e.w).n = weight l.stats + e.w := by
    unfold addStat weight
    cases l.stats with
    | none => simp
    | some st => rfl
  have hR : RatioOf cfg.lrConst cfg.lr cfg.decay (weight l.stats + e.w) (cfg.ratio (addStat l.stats e.y e.w).n) := by
    rw [← hst]; exact ratioOf_if _ _ _ _
  unfold Leaf.learn at hs
  simp only at hs
  generalize cfg.ratio (addStat l.stats e.y e.w).n = ρ at hR hs
  rw [hc, hl] at hs
  rw [hc, hl] at h1
  rw [hc] at h2
  simp only [percHead, floor_one hw.1 hw.2, started, times, percUpdate, hx] at hs
  simp only [percHead, if_neg (not_le.mpr hn), percPred, hx] at h1
  by_cases hf : fits rows xs.length = true
  · simp only [if_pos hf] at hs h1
    simp only [Except.ok.injEq] at h1
    simp only [Except.map, Except.ok.injEq] at hs
    subst hs
    simp only [percHead, if_neg (not_le.mpr hn), percPred, hx] at h2
    by_cases hf' : fits (adjust rows ρ (minus (normalizeY sqrt s e.y) (apply rows xs)) xs) xs.length = true
    · rw [if_pos hf'] at h2
      simp only [Except.ok.injEq] at h2
      have hlen : w.length = xs.length := by
        have := List.all_eq_true.mp hf j (List.mem_finRange j)
        simpa [hj] using this
      rw [← h1] at hv
      simp only [denorm, apply, hj, Option.map_some, Option.some.injEq] at hv
      rw [← h2] at hv'
      simp only [denorm, apply, adjust, minus, hj, Option.map_some] at hv'
      rw [zip_adjust] at hv'
      have hdel : normalizeY sqrt s e.y j - dot w xs = (e.y j - p) / sd sqrt (s.yy j) (s.y j) s.n := by
        unfold normalizeY standard
        simp only
        rw [if_neg (not_le.mpr hn), if_pos hd.ne', ← hv, eq_div_iff hd.ne', sub_mul, div_mul_cancel₀ _ hd.ne']
        ring
      rw [hdel] at hv'
      generalize hw' : List.zipWith (· + ·) w (xs.map fun v => ρ * ((e.y j - p) / sd sqrt (s.yy j) (s.y j) s.n) * v) = w' at hv'
      unfold unit at hv'
      by_cases hc0 : norm1 w' = 0
      · rw [if_pos hc0] at hv'; simp at hv'
      · rw [if_neg hc0] at hv'
        simp only [Option.map_some, Option.some.injEq] at hv'
        have hcp : 0 < norm1 w' := lt_of_le_of_ne (HR.norm1_nonneg _) (Ne.symm hc0)
        refine ⟨ρ, norm1 w', hR, hcp, ?_, ?_⟩
        · rw [← hw']; exact HR.norm1_adjust w xs _ hlen
        · unfold Moved
          rw [← hv', HR.dot_div, ← hw', HR.dot_adjust w xs xs _ hlen rfl, hw', HR.dot_self, ← hv]
          generalize hD : sd sqrt (s.yy j) (s.y j) s.n = D at hd hv ⊢
          field_simp
          ring
    · rw [if_neg hf'] at h2; simp at h2
  · simp only [if_neg hf] at hs; simp [Except.map] at hs

/-- C296 for the stacked trees: the second level takes the same kind of step, its row being the answers `p` of the first
level before the step with the bias 1.  Answers and target are in standard deviations from the mean; `a` and `a'` are the
answers of the second level before and after for the same `p`. -/
theorem C296_stacked_partial (sqrt : ℚ → ℚ) (cfg : Cfg T O (Option (Rows T × Rows T))) (hc : cfg.head = sstHead T sqrt) (s : Sums T)
    (e : Ev T O (Option (Rows T × Rows T))) (l l' : Leaf T O (Option (Rows T × Rows T))) (r1 r2 r1' r2' : Rows T) (j : Fin T)
    (w w' xs : List ℚ) (p : Fin T → ℚ)
    (hw : 1 ≤ e.w ∧ e.w < 2) (hn : 1 < s.n) (hd : 0 < sd sqrt (s.yy j) (s.y j) s.n) (hl : l.head = some (r1, r2))
    (hj : r2 j = some w) (hx : normalize sqrt s e.x = .ok xs) (hp : ∀ i, ∃ u, r1 i = some u ∧ dot u xs = p i)
    (hs : l.learn cfg s e = .ok l') (hl' : l'.head = some (r1', r2')) (hj' : r2' j = some w') :
    let z := (List.finRange T).map p ++ [1]
    ∃ ρ c, RatioOf cfg.lrConst cfg.lr cfg.decay (weight l.stats + e.w) ρ ∧ 0 < c ∧
      |c - (w.map fun v => |v|).sum| ≤ |ρ * ((e.y j - s.y j / s.n) / sd sqrt (s.yy j) (s.y j) s.n - dot w z)| * (z.map fun v => |v|).sum ∧
      Moved 0 ((e.y j - s.y j / s.n) / sd sqrt (s.yy j) (s.y j) s.n) (ρ * (z.map fun v => v * v).sum) c (dot w z) (dot w' z) := by
  intro z
  have hst : (addStat l.stats e.y e.w).n = weight l.stats + e.w := by
    unfold addStat weight
    cases l.stats with
    | none => simp
    | some st => rfl
  have hR : RatioOf cfg.lrConst cfg.lr cfg.decay (weight l.stats + e.w) (cfg.ratio (addStat l.stats e.y e.w).n) := by
    rw [← hst]; exact ratioOf_if _ _ _ _
  unfold Leaf.learn at hs
  simp only at hs
  generalize cfg.ratio (addStat l.stats e.y e.w).n = ρ at hR hs
  rw [hc, hl] at hs
  simp only [sstHead, floor_one hw.1 hw.2, started2, times, stackUpdate, hx] at hs
  have hap : apply r1 xs = fun i => some (p i) := by
    funext i
    obtain ⟨u, hu, hdot⟩ := hp i
    simp only [apply, hu, Option.map_some, hdot]
  have hz : withBias (fun i => some (p i)) = some z := by
    unfold withBias
    rw [if_pos (by simp)]
    rfl
  by_cases hf : fits r1 xs.length = true ∧ fits r2 (T + 1) = true
  · simp only [if_pos hf, hap] at hs
    simp only [Except.map, Except.ok.injEq] at hs
    subst hs
    simp only [Option.some.injEq, Prod.mk.injEq] at hl'
    have hlen : w.length = z.length := by
      have := List.all_eq_true.mp hf.2 j (List.mem_finRange j)
      have h1 : w.length = T + 1 := by simpa [hj] using this
      rw [h1]; simp [z]
    rw [← hl'.2] at hj'
    simp only [adjust2, hj, hz, minus, stack, Option.map_some] at hj'
    rw [zip_adjust] at hj'
    have hdel : normalizeY sqrt s e.y j - dot w z = (e.y j - s.y j / s.n) / sd sqrt (s.yy j) (s.y j) s.n - dot w z := by
      unfold normalizeY standard
      simp only
      rw [if_neg (not_le.mpr hn), if_pos hd.ne']
    rw [hdel] at hj'
    generalize (e.y j - s.y j / s.n) / sd sqrt (s.yy j) (s.y j) s.n = y at hj' ⊢
    generalize hv : List.zipWith (· + ·) w (z.map fun v => ρ * (y - dot w z) * v) = v at hj'
    unfold unit at hj'
    by_cases hc0 : norm1 v = 0
    · rw [if_pos hc0] at hj'; simp at hj'
    · rw [if_neg hc0] at hj'
      simp only [Option.some.injEq] at hj'
      have hcp : 0 < norm1 v := lt_of_le_of_ne (HR.norm1_nonneg _) (Ne.symm hc0)
      refine ⟨ρ, norm1 v, hR, hcp, ?_, ?_⟩
      · rw [← hv]; exact HR.norm1_adjust w z _ hlen
      · unfold Moved
        rw [← hj', HR.dot_div, ← hv, HR.dot_adjust w z z _ hlen rfl, hv, HR.dot_self]
        field_simp
        ring
  · simp only [if_neg hf] at hs; simp [Except.map] at hs

/-- C296, the beginning: as long as the tree has seen a weight of at most one, there is no scale to normalise a row
with, and learning leaves perceptrons of norm one as they are. -/
theorem C296_first_partial (sqrt : ℚ → ℚ) (s : Sums T) (st : VStat T) (e : Row T) (rows : Rows T) (hn : s.n ≤ 1)
    (hu : ∀ j r, rows j = some r → (r.map fun v => |v|).sum = 1 ∧ r.length = e.x.length + 1) :
    (percHead T sqrt).learn s st e (some rows) = .ok (some rows) := by
  have hxs : normalize sqrt s e.x = .ok (List.replicate (e.x.length + 1) 0) := by
    unfold normalize; rw [if_pos hn]
  have hfit : fits rows (List.replicate (e.x.length + 1) (0 : ℚ)).length = true := by
    unfold fits
    rw [List.all_eq_true]
    intro j _
    cases hj : rows j with
    | none => rfl
    | some r => simp [(hu j r hj).2]
  have hstep : percUpdate sqrt s e rows = .ok rows := by
    unfold percUpdate
    rw [hxs]
    simp only [if_pos hfit]
    congr 1
    funext j
    unfold adjust minus apply
    cases hj : rows j with
    | none => rfl
    | some r =>
      obtain ⟨h1, h2⟩ := hu j r hj
      simp only [Option.map_some]
      have hz : ∀ (a b : ℚ) (n : Nat) (l : List ℚ), l.length = n →
          List.zipWith (fun r v => r + a * (b * v)) l (List.replicate n 0) = l := by
        intro a b n l hl
        induction l generalizing n with
        | nil => simp
        | cons v l ih =>
          cases n with
          | zero => simp at hl
          | succ n =>
            simp only [List.replicate_succ, List.zipWith_cons_cons, mul_zero, add_zero]
            rw [ih n (by simpa using hl)]
      rw [hz _ _ _ r h2]
      have hnorm : norm1 r = 1 := h1
      unfold unit
      rw [hnorm]
      simp
  have ht : ∀ k, times (percUpdate sqrt s e) k rows = .ok rows := by
    intro k
    induction k with
    | zero => rfl
    | succ k ih => simp only [times, hstep, ih]
  simp only [percHead, started, ht, Except.map]

example : ∀ j : Fin 1, ∀ r, (fun _ => some [1 / 2, -(1 / 2)] : Rows 1) j = some r →
    (r.map fun v => |v|).sum = 1 ∧ r.length = [3].length + 1 := by
  intro j r h
  cases h
  decide +kernel

/-- A leaf and sums as in the theorem: the target has mean 0 and standard deviation 2, the ratio is 1/2 and the row is
`(1, 1)` with its bias, so the answer moves the whole way from 0 to the target 2. -/
def stepLeaf : Leaf 1 Unit (Option (Rows 1)) :=
  ⟨true, some ⟨3, fun _ => 0, fun _ => 8⟩, (), some fun _ => some [1 / 2, -1 / 2], 0⟩

example : let s : Sums 1 := ⟨3, fun _ => 0, fun _ => 8, some [0], some [2]⟩
    0 < sd toyRoot (s.yy 0) (s.y 0) s.n ∧ (normalize toyRoot s [1]).toOption = some [1, 1] ∧
    ((percCfg.head.predict s stepLeaf.stats [1] stepLeaf.head).toOption.map fun v => v 0) = some (some 0) ∧
    ((stepLeaf.learn percCfg s (percEv 1 2)).toOption.bind fun l =>
      (percCfg.head.predict s l.stats [1] l.head).toOption.map fun v => v 0) = some (some 2) := by
  decide +kernel

/-- The same leaf with a second level of weights (1/2, -1/2): the first level answers 0, the second -1/2, and a step towards
the target 1 (2 in its own unit) changes its weights to (2/3, 1/3). -/
example : let s : Sums 1 := ⟨3, fun _ => 0, fun _ => 8, some [0], some [2]⟩
    ((({ active := true, stats := some ⟨3, fun _ => 0, fun _ => 8⟩, obs := (),
         head := some (fun _ => some [1 / 2, -1 / 2], fun _ => some [1 / 2, -1 / 2]), last := 0 } :
        Leaf 1 Unit (Option (Rows 1 × Rows 1))).learn sstCfg s (sstEv 1 2)).toOption.bind fun l => l.head.bind fun r => r.2 0) =
      some [2 / 3, 1 / 3] := by
  decide +kernel

end MT

end Verif.Trees
