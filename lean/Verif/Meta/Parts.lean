import Verif.Lazy.KNNAdwin
import Verif.Bayes.NaiveBayes
import Verif.Meta.OzaAdwin
import Verif.Meta.LearnNSE
import Verif.Meta.LearnPP
import Verif.Meta.BatchInc
import Verif.Meta.Forest
import Verif.Meta.SkewRows

/-!
C282: training on a batch and training on it in two parts.
-/

namespace Verif.Meta.Parts

/-- Specification: once the first part was learnt, going on with the second part gives what learning
both at once from the start gives, be it a state or an exception. -/
def SameInParts {S A : Type} (fit : S → List A → Except PyErr S) : Prop :=
  ∀ s a b s₁, fit s a = .ok s₁ → fit s (a ++ b) = fit s₁ b

/-- C282: `KNNClassifier` (the known classes are a set). -/
theorem C282_knn {X : Type} (w : Nat) (m : Lazy.Knn X) (a b : List (X × Nat)) (classes : Option (List Nat)) :
    (m.fit w (a ++ b) classes).win = ((m.fit w a classes).fit w b classes).win ∧
    ∀ c, c ∈ (m.fit w (a ++ b) classes).classes ↔ c ∈ ((m.fit w a classes).fit w b classes).classes := by
  refine ⟨by simp [Lazy.Knn.fit, List.foldl_append], ?_⟩
  intro c
  simp [Lazy.Knn.fit]

/-- What the first lines of `partial_fit` of `NaiveBayes` come to, for a list or nothing. -/
theorem naive_bayes_eq {V O : Type} (B : Bayes.Obs V O) (s : Bayes.NB O) (batch : List (Bayes.Sample V)) (classes : Option (List Nat)) :
    s.partialFit B batch (classes.map .list) =
      match (match s.classes with | none => .ok true | some c => c.falsy : Except PyErr Bool) with
      | .error e => .error e
      | .ok f => .ok (batch.foldl (fun s a => if a.w ≠ 0 then s.learn B a else s)
          (if f = true ∧ classes ≠ none then { s with classes := classes.map .list } else s)) := by
  unfold Bayes.NB.partialFit
  cases hs : s.classes with
  | none => cases classes <;> rfl
  | some c =>
    cases hf : c.falsy with
    | error e => simp only [hf]; rfl
    | ok f => cases f <;> cases classes <;> (simp only [hf]; rfl)

/-- C282: `NaiveBayes`, when `classes` is not given or is a list. -/
theorem C282_naive_bayes {V O : Type} (B : Bayes.Obs V O) (classes : Option (List Nat)) :
    SameInParts fun (s : Bayes.NB O) batch => s.partialFit B batch (classes.map .list) := by
  intro s a b s₁ h
  simp only at h ⊢
  rw [naive_bayes_eq] at h ⊢
  rw [naive_bayes_eq]
  have keep : ∀ (l : List (Bayes.Sample V)) (t : Bayes.NB O),
      (l.foldl (fun s a => if a.w ≠ 0 then s.learn B a else s) t).classes = t.classes := by
    intro l
    induction l with
    | nil => intro t; rfl
    | cons q l ih =>
      intro t
      rw [List.foldl_cons, ih]
      split <;> rfl
  cases hf : (match s.classes with | none => .ok true | some c => c.falsy : Except PyErr Bool) with
  | error e => rw [hf] at h; cases h
  | ok f =>
    rw [hf] at h
    simp only [Except.ok.injEq] at h ⊢
    rw [List.foldl_append, h]
    have hc : s₁.classes = if f = true ∧ classes ≠ none then classes.map .list else s.classes := by
      rw [← h, keep]
      split <;> rfl
    by_cases hg : f = true ∧ classes ≠ none
    · rw [if_pos hg] at hc
      rw [hc]
      cases classes with
      | none => exact absurd rfl hg.2
      | some c =>
        simp only [Option.map_some, Bayes.Classes.falsy]
        simp only [Option.map_some] at hc
        congr 2
        split
        · rw [← hc]
        · rfl
    · rw [if_neg hg] at hc
      rw [hc, hf]
      simp only
      rw [if_neg hg]

/-- What the check of the classes accepted it accepts again. -/
theorem check_again (known given : Option (List Int)) (k : List Int) (h : Oza.checkClasses known given = .ok k) :
    Oza.checkClasses (some k) given = .ok k := by
  have refl : ∀ l : List Int, Oza.sameSet l l = true := by
    intro l; rw [Oza.sameSet, Bool.and_eq_true]; constructor <;> exact List.all_eq_true.mpr fun x hx => by simpa using hx
  cases known with
  | none =>
    cases given with
    | none => cases h
    | some c =>
      simp only [Oza.checkClasses, Except.ok.injEq] at h
      subst h
      simp only [Oza.checkClasses]
      rw [if_pos (refl c)]
  | some k0 =>
    cases given with
    | none => simp only [Oza.checkClasses]
    | some c =>
      simp only [Oza.checkClasses] at h ⊢
      by_cases hs : Oza.sameSet k0 c = true
      · rw [if_pos hs] at h
        simp only [Except.ok.injEq] at h
        subst h
        rw [if_pos hs]
      · rw [if_neg hs] at h; cases h

/-- C282: `OzaBagging`; the draws continue where the first part left them. -/
theorem C282_oza {σ X Y : Type} (b : Oza.Base σ X Y) (poisson : Nat → Nat) (classes : Option (List Int)) :
    SameInParts fun s rows => Oza.partialFit b poisson s rows classes := by
  intro s a c s₁ h
  simp only at h ⊢
  have rowsLen : ∀ (ens : List σ) (pos : Nat) (x : X) (y : Y), (Oza.trainRow b poisson classes x y ens pos).1.length = ens.length := by
    intro ens
    induction ens with
    | nil => intro pos x y; rfl
    | cons m ens ih => intro pos x y; simp only [Oza.trainRow, List.length_cons, ih]
  have rows : ∀ (a c : List (X × Y)) (ens : List σ) (pos : Nat),
      Oza.trainRows b poisson classes (a ++ c) ens pos =
        Oza.trainRows b poisson classes c (Oza.trainRows b poisson classes a ens pos).1 (Oza.trainRows b poisson classes a ens pos).2 ∧
      (Oza.trainRows b poisson classes a ens pos).1.length = ens.length := by
    intro a c
    induction a with
    | nil => intro ens pos; exact ⟨rfl, rfl⟩
    | cons r a ih =>
      intro ens pos
      simp only [List.cons_append, Oza.trainRows]
      obtain ⟨i1, i2⟩ := ih (Oza.trainRow b poisson classes r.1 r.2 ens pos).1 (Oza.trainRow b poisson classes r.1 r.2 ens pos).2
      exact ⟨i1, by rw [i2, rowsLen]⟩
  unfold Oza.partialFit at h ⊢
  cases hc : Oza.checkClasses s.classes classes with
  | error e => rw [hc] at h; cases h
  | ok known =>
    rw [hc] at h
    simp only [Except.ok.injEq] at h ⊢
    subst h
    simp only
    rw [check_again _ _ _ hc]
    simp only [Except.ok.injEq]
    have hl : known.length ≤ (Oza.adjust b known s.ensemble).length := by
      unfold Oza.adjust
      split
      · split
        · simp; omega
        · omega
      · rename_i h; simp at h; omega
    have := rows a c (Oza.adjust b known s.ensemble) s.pos
    rw [this.1, Oza.adjust_len b known (Oza.trainRows b poisson classes a (Oza.adjust b known s.ensemble) s.pos).1 (by rw [this.2]; exact hl)]

/-- C282: `LearnPPNSE`. -/
theorem C282_learn_nse {F X S : Type} [Field F] [LinearOrder F] (E : NSE.Env F X S) (classes : Option (List Int)) :
    SameInParts fun c xs => NSE.partialFit E c classes xs := by
  have known : ∀ (c : NSE.Cls F X S) (k : List Int) (xs : List (X × Int)),
      (match c.classes with | none => classes | some k => some k) = some k →
      NSE.partialFit E c classes xs = match Windows.feed E.window (NSE.process E k) (c.st, c.buf) xs with
        | (_, some e) => Except.error e
        | ((st, b), none) => Except.ok ⟨some k, st, b⟩ := by
    intro c k xs h
    unfold NSE.partialFit
    cases hc : c.classes with
    | none => rw [hc] at h; simp only at h; subst h; rfl
    | some k' => rw [hc] at h; simp only [Option.some.injEq] at h; subst h; rfl
  intro c a b c₁ h
  simp only at h ⊢
  cases hk : (match c.classes with | none => classes | some k => some k : Option (List Int)) with
  | none =>
    exfalso
    cases hc : c.classes with
    | none => rw [hc] at hk; simp only at hk; subst hk; simp only [NSE.partialFit, hc] at h; cases h
    | some k => rw [hc] at hk; cases hk
  | some k =>
    rw [known _ k _ hk] at h ⊢
    rw [Windows.feed_append]
    rcases hf : Windows.feed E.window (NSE.process E k) (c.st, c.buf) a with ⟨⟨st, buf⟩, o⟩
    rw [hf] at h
    cases o with
    | some e => cases h
    | none =>
      simp only [Except.ok.injEq] at h
      subst h
      rw [known _ k _ rfl]

/-- C282: `LearnPPClassifier`; here a call that raises leaves a changed object, so the result is the
object and the exception. -/
theorem C282_learn_pp {F X S : Type} [Field F] [LinearOrder F] (E : LPP.Env F X S) (fuel : Nat) (classes : Option (List Int))
    (c c₁ : LPP.Cls F X S) (a b : List (X × Int)) (h : LPP.partialFit E fuel c classes a = (c₁, none)) :
    LPP.partialFit E fuel c classes (a ++ b) = LPP.partialFit E fuel c₁ classes b := by
  have known : ∀ (c : LPP.Cls F X S) (k : List Int) (xs : List (X × Int)),
      (match c.classes with | none => classes | some k => some k) = some k →
      LPP.partialFit E fuel c classes xs = if LPP.differs classes k then ({ c with classes := some k }, some (some .other)) else
        (⟨some k, (Windows.feed E.window (LPP.process E k fuel) (c.st, c.buf) xs).1.1,
          (Windows.feed E.window (LPP.process E k fuel) (c.st, c.buf) xs).1.2⟩,
          (Windows.feed E.window (LPP.process E k fuel) (c.st, c.buf) xs).2) := by
    intro c k xs h
    unfold LPP.partialFit
    cases hc : c.classes with
    | none => rw [hc] at h; simp only at h; subst h; rfl
    | some k' => rw [hc] at h; simp only [Option.some.injEq] at h; subst h; rfl
  cases hk : (match c.classes with | none => classes | some k => some k : Option (List Int)) with
  | none =>
    exfalso
    cases hc : c.classes with
    | none => rw [hc] at hk; simp only at hk; subst hk; simp only [LPP.partialFit, hc] at h; cases h
    | some k => rw [hc] at hk; cases hk
  | some k =>
    rw [known _ k _ hk] at h ⊢
    cases hd : LPP.differs classes k with
    | true => rw [hd, if_pos rfl] at h; cases h
    | false =>
      rw [hd, if_neg Bool.false_ne_true] at h
      rw [if_neg Bool.false_ne_true]
      rw [Windows.feed_append]
      rcases hf : Windows.feed E.window (LPP.process E k fuel) (c.st, c.buf) a with ⟨⟨st, buf⟩, o⟩
      rw [hf] at h
      simp only [Prod.mk.injEq] at h
      obtain ⟨h1, h2⟩ := h
      subst h2
      subst h1
      rw [known _ k _ rfl, hd, if_neg Bool.false_ne_true]

/-- C282: `BatchIncrementalClassifier`. -/
theorem C282_batch_incremental {S M : Type} (w n : Nat) (fit : List S → M) :
    SameInParts (BatchInc.partialFit w n fit) := by
  intro s a b s₁ h
  rw [BatchInc.partialFit] at h ⊢
  rw [List.foldlM_append, h]
  rfl

/-- C282: `AdaptiveRandomForestClassifier` without weights; the second part must not be empty, since
`check_weights` refuses a batch of no rows. -/
theorem C282_forest {X T D R : Type} (E : Forest.Env X T D R) (N : Nat) (r0 : Nat → R) (dr : Nat → Nat → Forest.Draw R)
    (classes : Option (List Int)) (s s₁ : Forest.St T D) (a b : List (X × Int)) (hb : b ≠ [])
    (h : Forest.call E N r0 dr s (.fit a none classes) = .ok s₁) :
    Forest.call E N r0 dr s (.fit (a ++ b) none classes) = Forest.call E N r0 dr s₁ (.fit b none classes) := by
  have keep : ∀ (a : List (X × Int)) (ws : List ℚ) (s s₁ : Forest.St T D),
      Forest.fitRows E N r0 dr a ws s = .ok s₁ → s₁.classes = s.classes := by
    intro a
    induction a with
    | nil =>
      intro ws s s₁ h
      simp only [Forest.fitRows, Except.ok.injEq] at h
      rw [h]
    | cons r a ih =>
      intro ws s s₁ h
      obtain ⟨x, y⟩ := r
      cases ws with
      | nil => simp only [Forest.fitRows] at h; cases h
      | cons w ws =>
        simp only [Forest.fitRows] at h
        rw [ih _ _ _ h]
        by_cases hw : w ≠ 0
        · rw [if_pos hw]
          simp only [Forest.fitOne, Forest.ensure]
          cases s.ensemble <;> rfl
        · rw [if_neg hw]
  have app : ∀ (a b : List (X × Int)) (ws ws' : List ℚ) (s s₁ : Forest.St T D), ws.length = a.length →
      Forest.fitRows E N r0 dr a ws s = .ok s₁ →
      Forest.fitRows E N r0 dr (a ++ b) (ws ++ ws') s = Forest.fitRows E N r0 dr b ws' s₁ := by
    intro a b
    induction a with
    | nil =>
      intro ws ws' s s₁ hl h
      cases ws with
      | nil =>
        simp only [Forest.fitRows, Except.ok.injEq] at h
        rw [h]; rfl
      | cons w ws => cases hl
    | cons r a ih =>
      intro ws ws' s s₁ hl h
      obtain ⟨x, y⟩ := r
      cases ws with
      | nil => cases hl
      | cons w ws =>
        simp only [Forest.fitRows] at h
        simp only [List.cons_append, Forest.fitRows]
        exact ih ws ws' _ _ (by simpa using hl) h
  have ones : ∀ n : Nat, n ≥ 1 → Forest.checkWeights ((none : Option Forest.WArg).getD (.num 1)) n = .ok (List.replicate n 1) := by
    intro n hn
    simp only [Option.getD_none, Forest.checkWeights]
    rw [if_pos hn]
  have ha : a.length ≥ 1 := by
    by_contra hn
    have : a.length = 0 := by omega
    simp only [Forest.call, Option.getD_none, Forest.checkWeights] at h
    rw [if_neg hn] at h
    cases h
  have hb' : b.length ≥ 1 := List.length_pos_iff.mpr hb
  simp only [Forest.call] at h ⊢
  rw [ones _ ha] at h
  rw [ones _ hb', ones _ (by rw [List.length_append]; omega), List.length_append, List.replicate_add]
  simp only at h ⊢
  have hc := keep _ _ _ _ h
  have h1 : (if s₁.classes = none then { s₁ with classes := classes } else s₁) = s₁ := by
    by_cases hn : s₁.classes = none
    · rw [if_pos hn]
      by_cases hs : s.classes = none
      · rw [if_pos hs] at hc
        simp only at hc
        rw [← hc]
      · rw [if_neg hs, hn] at hc
        exact absurd hc.symm hs
    · rw [if_neg hn]
  rw [h1]
  exact app _ _ _ _ _ _ (by simp) h

/-- C282: `OnlineAdaC2Classifier`, `OnlineCSB2Classifier`, `OnlineRUSBoost` and
`OnlineUnderOverBagging` without drift detection and without weights. -/
theorem C282_skewed {σ δ X τ γ : Type} (E : Skew.Env σ δ X τ γ) (hd : E.drift = false) (classes : Option (List Int)) :
    SameInParts fun s rows => (Skew.partialFit E ⟨rows, classes, none⟩ s).map Prod.snd := by
  -- without drift detection the rows of the call play no part
  have train : ∀ (q q' : List (X × Int)) (x : X) (y : Int) (k : Nat) (s : σ),
      Skew.trainN E.b ⟨q, classes, none⟩ x y k s = Skew.trainN E.b ⟨q', classes, none⟩ x y k s := by
    intro q q' x y k
    induction k with
    | zero => intro s; rfl
    | succ k ih =>
      intro s
      simp only [Skew.trainN]
      cases E.b.fit s x y classes none with
      | error e => rfl
      | ok s' => exact ih s'
  have visit : ∀ (q q' : List (X × Int)) (x : X) (y : Int) (n : Nat) (ms : List (Skew.M σ δ τ)) (i : Nat) (lam : ℚ) (g : γ) (pos : Nat) (ch : Bool),
      Skew.visitAll E ⟨q, classes, none⟩ x y n ms i lam g pos ch = Skew.visitAll E ⟨q', classes, none⟩ x y n ms i lam g pos ch := by
    intro q q' x y n ms
    induction ms with
    | nil => intro i lam g pos ch; rfl
    | cons m ms ih =>
      intro i lam g pos ch
      simp only [Skew.visitAll, Skew.watch, hd, train q q', ih, Bool.false_eq_true, if_false]
  have rowsEq : ∀ (q q' : List (X × Int)) (rows : List (X × Int)) (s : Skew.St σ δ τ γ),
      Skew.trainRows E ⟨q, classes, none⟩ rows s = Skew.trainRows E ⟨q', classes, none⟩ rows s := by
    intro q q' rows
    induction rows with
    | nil => intro s; rfl
    | cons r rows ih =>
      intro s
      simp only [Skew.trainRows, Skew.trainRow, visit q q', ih]
  have vlen : ∀ (c : Skew.Call X) (x : X) (y : Int) (n : Nat) (ms : List (Skew.M σ δ τ)) (i : Nat) (lam : ℚ) (g : γ) (pos : Nat) (ch : Bool) vs ms' r,
      Skew.visitAll E c x y n ms i lam g pos ch = .ok (vs, ms', r) → ms'.length = ms.length := by
    intro c x y n ms
    induction ms with
    | nil =>
      intro i lam g pos ch vs ms' r h
      simp only [Skew.visitAll, Except.ok.injEq, Prod.mk.injEq] at h
      rw [← h.2.1]
    | cons m ms ih =>
      intro i lam g pos ch vs ms' r h
      simp only [Skew.visitAll] at h
      split at h
      · cases h
      · split at h
        · cases h
        · split at h
          · cases h
          · split at h
            · cases h
            · split at h
              · cases h
              · rename_i hv
                simp only [Except.ok.injEq, Prod.mk.injEq] at h
                rw [← h.2.1, List.length_cons, List.length_cons, ih _ _ _ _ _ _ _ _ hv]
  have rlen : ∀ (c : Skew.Call X) (rows : List (X × Int)) (s : Skew.St σ δ τ γ) vs s',
      Skew.trainRows E c rows s = .ok (vs, s') → s'.members.length = s.members.length ∧ s'.classes = s.classes := by
    intro c rows
    induction rows with
    | nil =>
      intro s vs s' h
      simp only [Skew.trainRows, Except.ok.injEq, Prod.mk.injEq] at h
      rw [← h.2]; exact ⟨rfl, rfl⟩
    | cons r rows ih =>
      intro s vs s' h
      simp only [Skew.trainRows] at h
      cases hr : Skew.trainRow E c r.1 r.2 s with
      | error e => rw [hr] at h; cases h
      | ok q =>
        obtain ⟨vs1, s1⟩ := q
        rw [hr] at h
        simp only at h
        cases hr2 : Skew.trainRows E c rows s1 with
        | error e => rw [hr2] at h; cases h
        | ok q2 =>
          obtain ⟨vs2, s2⟩ := q2
          rw [hr2] at h
          simp only [Except.ok.injEq, Prod.mk.injEq] at h
          rw [← h.2, (ih _ _ _ hr2).1, (ih _ _ _ hr2).2]
          simp only [Skew.trainRow] at hr
          split at hr
          · cases hr
          · rename_i hv
            simp only [hd, Bool.and_false, Except.ok.injEq, Prod.mk.injEq] at hr
            rw [← hr.2]
            exact ⟨vlen _ _ _ _ _ _ _ _ _ _ _ _ _ hv, rfl⟩
  have app : ∀ (c : Skew.Call X) (a b : List (X × Int)) (s s₁ : Skew.St σ δ τ γ),
      (Skew.trainRows E c a s).map Prod.snd = .ok s₁ →
      (Skew.trainRows E c (a ++ b) s).map Prod.snd = (Skew.trainRows E c b s₁).map Prod.snd := by
    intro c a b
    induction a with
    | nil =>
      intro s s₁ h
      simp only [Skew.trainRows, Except.map, Except.ok.injEq] at h
      rw [h]; rfl
    | cons r a ih =>
      intro s s₁ h
      simp only [List.cons_append, Skew.trainRows] at h ⊢
      cases hr : Skew.trainRow E c r.1 r.2 s with
      | error e => rw [hr] at h; cases h
      | ok q =>
        obtain ⟨vs1, s1⟩ := q
        rw [hr] at h
        simp only at h ⊢
        rw [← ih s1 s₁ (by
          cases hr2 : Skew.trainRows E c a s1 with
          | error e => rw [hr2] at h; cases h
          | ok q2 => rw [hr2] at h; exact h)]
        cases Skew.trainRows E c (a ++ b) s1 <;> rfl
  intro s a b s₁ h
  simp only at h ⊢
  unfold Skew.partialFit at h ⊢
  simp only at h ⊢
  cases hc : Oza.checkClasses s.classes classes with
  | error e => rw [hc] at h; cases h
  | ok known =>
    rw [hc] at h
    simp only at h ⊢
    have hs : s₁.members.length = (Skew.adjust E known s.members).length ∧ s₁.classes = some known := by
      cases ht : Skew.trainRows E ⟨a, classes, none⟩ a { s with members := Skew.adjust E known s.members, classes := some known } with
      | error e => rw [ht] at h; cases h
      | ok q =>
        obtain ⟨vs, s'⟩ := q
        rw [ht] at h
        simp only [Except.map, Except.ok.injEq] at h
        subst h
        exact rlen _ _ _ _ _ ht
    have hl : known.length ≤ (Skew.adjust E known s.members).length := by
      unfold Skew.adjust
      split
      · simp; omega
      · omega
    rw [hs.2, check_again _ _ _ hc]
    simp only
    have h1 : ({ s₁ with members := Skew.adjust E known s₁.members, classes := some known } : Skew.St σ δ τ γ) = s₁ := by
      have : Skew.adjust E known s₁.members = s₁.members := by
        unfold Skew.adjust
        rw [if_neg (by omega)]
      rw [this, ← hs.2]
    rw [h1, rowsEq (a ++ b) a, rowsEq b a]
    exact app _ _ _ _ _ h

/-- Non-vacuity: a batch-incremental ensemble of windows of two, trained on three rows and then one. -/
example : ((BatchInc.partialFit 2 5 List.sum (BatchInc.init 2 0) [1, 2, 3]).toOption.map fun s => (s.ensemble, s.i)) = some ([3], 1) ∧
    ((BatchInc.partialFit 2 5 List.sum (BatchInc.init 2 0) [1, 2, 3, 4]).toOption.map fun s => (s.ensemble, s.i)) = some ([3, 7], 0) := by
  decide +kernel

/-- Non-vacuity: `OzaBagging` of two counting learners; the first part draws 0 and 1, the second 0 and 1 again. -/
example : ((Oza.partialFit (⟨0, fun (s : Nat) (_ : Unit) (_ : Int) _ => s + 1, fun _ _ => .ok []⟩ : Oza.Base Nat Unit Int) (fun p => p % 2)
    ⟨[0, 0], none, 0⟩ [((), 1)] (some [0, 1])).toOption.map fun s => (s.ensemble, s.pos)) = some ([0, 1], 2) := by decide +kernel

/-! ### Where it is not so -/

/-- Two ways of training that can be told apart. -/
theorem told_apart {σ α β : Type} {fit : σ → List α → Except PyErr σ} (s : σ) (a b : List α) (f : σ → β) (u v : β) (huv : u ≠ v)
    (h1 : (fit s (a ++ b)).toOption.map f = some u)
    (h2 : (match fit s a with | .error e => .error e | .ok t => fit t b : Except PyErr σ).toOption.map f = some v) :
    ¬ SameInParts fit := by
  intro h
  cases hf : fit s a with
  | error e => rw [hf] at h2; cases h2
  | ok t =>
    rw [hf] at h2
    simp only at h2
    rw [h s a b t hf, h2] at h1
    exact huv (Option.some.inj h1).symm

/-- A learner that counts the rows it was trained on and predicts that number. -/
def counting : Oza.BaseA Nat Unit Int := ⟨0, fun s rows _ => s + rows.length, fun s xs => some (xs.map fun _ => some (s : Int)), fun _ => 0⟩

/-- C282: not so for `OzaBaggingADWINClassifier`: the member is judged on the rows of a call after it
learnt all of them, so here its detector is told two hits by one call, and a miss and a hit by two. -/
theorem C282_oza_adwin_differs (cut : Adwin.Cut) :
    ¬ SameInParts fun s rows => Oza.partialFitA counting (Oza.adwinDet cut) (fun _ => 1) s rows none :=
  told_apart ⟨[(0, Adwin.init)], some [2], 0⟩ [((), 2)] [((), 2)] (fun s => s.members.map fun m => m.2.total) [2] [1]
    (by decide +kernel) (by with_unfolding_all rfl) (by with_unfolding_all rfl)

/-- Under-over bagging with drift detection by ADWIN (no check is due in so few rows). -/
def drifting : Skew.Env Int Adwin.State Unit Unit Unit :=
  ⟨Skew.underOver 2, Skew.lastLabel, Oza.adwinDet Adwin.never, true, fun _ _ => 1⟩

/-- C282: not so for the ensembles for skewed classes with drift detection: after every row each
detector is told about all rows of the call. -/
theorem C282_skewed_drift_differs :
    ¬ SameInParts fun s rows => (Skew.partialFit drifting ⟨rows, some [0], none⟩ s).map Prod.snd :=
  told_apart (Skew.fresh drifting 1) [((), 0)] [((), 0)] (fun s => s.members.map fun m => m.det.width) [4] [2]
    (by decide) (by decide +kernel) (by decide +kernel)

deriving instance DecidableEq for Adwin.Bucket, Adwin.State

/-- The newest three samples are taken for the nearest. -/
def newest (win : List (Nat × Nat)) (_ : Nat) : List Nat := [win.length - 3, win.length - 2, win.length - 1]

/-- Thirty calls with samples of class 0. -/
def calm : List (List (Nat × Nat) × Option (List Nat)) :=
  ([(0, 0), (1, 0), (2, 0)], none) :: (List.range 29).map fun i => ([(i + 3, 0)], none)

/-- One sample more. -/
def onemore : List (Nat × Nat) := [(32, 0)]

/-- Many samples of new classes. -/
def upset : List (Nat × Nat) := (List.range 97).map fun i => (i + 33, i + 1)

theorem early (cut : Adwin.Cut) (w k : Nat) (query : List (Nat × Nat) → Nat → List Nat)
    (calls : List (List (Nat × Nat) × Option (List Nat))) : ∀ t : Lazy.KA Nat, t.det.clock = 32 → t.det.time + calls.length < 32 →
      Lazy.KA.fits cut w k query t calls = Lazy.KA.fits Adwin.never w k query t calls := by
  induction calls with
  | nil => intro t _ _; rfl
  | cons c cs ih =>
    intro t hcl ht
    simp only [List.length_cons] at ht
    rw [Lazy.KA.fits, Lazy.KA.fits]
    unfold Lazy.KA.fit
    cases hr : Lazy.KA.rows w k query ⟨t.win, t.classes ++ c.2.getD [], t.det⟩ c.1 with
    | error e => rfl
    | ok t2 =>
      simp only
      obtain ⟨_, _, hs, _, r4, _⟩ := Lazy.rows_spec w k query _ _ _ hr
      obtain ⟨r5, r6⟩ := Lazy.run_time cut hs _ _ (r4 cut)
      simp only at r5 r6
      by_cases hk : t2.win.length ≥ k
      · rw [if_pos hk, if_pos hk]
        have hd : ∀ cut, Adwin.step cut t2.det .check = some (.ok (false, { t2.det with time := t2.det.time + 1, change := false })) := by
          intro cut
          show Adwin.detectedChange cut (t2.det.width + 1) t2.det = _
          refine Adwin.detect_of_scan cut t2.det (by omega) fun hd => ?_
          have : (t2.det.time + 1) % t2.det.clock = t2.det.time + 1 := Nat.mod_eq_of_lt (by omega)
          omega
        rw [hd, hd]
        simp only
        exact ih _ (by simp only; omega) (by simp only; omega)
      · rw [if_neg hk, if_neg hk]
        exact ih _ (by omega) (by omega)

/-- The state before the check of the last call, when the rows come in two calls. -/
def half : Except PyErr (Lazy.KA Nat) :=
  match Lazy.KA.fits Adwin.never 1000 3 newest Lazy.KA.new (calm ++ [(onemore, none)]) with
  | .error e => .error e
  | .ok s => Lazy.KA.rows 1000 3 newest s upset

/-- What the detector was told then. -/
def story : List Adwin.Op :=
  [.add 0, .add 0, .add 1, .check] ++ (List.replicate 30 [Adwin.Op.add 1, .check]).flatten ++ List.replicate 97 (.add 0)

/-- The check that is due now finds a cut. -/
def upsetting (s : Adwin.State) : Bool :=
  decide (half.toOption.map Lazy.KA.det = some s) && decide (s.width = 130) && decide ((s.time + 1) % s.clock = 0) && decide (0 ≤ s.variance) &&
    (List.range 20).any fun k =>
      let p := (Adwin.visited 0 s.rows).take (k + 1)
      decide (5 ≤ Adwin.vsize p) && decide (5 ≤ s.width - Adwin.vsize p) &&
        Adwin.test 9 (Adwin.vsize p) (s.width - Adwin.vsize p) (p.map Prod.snd).sum (s.total - (p.map Prod.snd).sum) (s.variance / s.width)

/-- C282: not so for `KNNADWINClassifier` (three neighbours, the test of ADWIN with its default 0.002): after
thirty calls, the rows `onemore ++ upset` are all kept when they come in one call; when they come in
two, the second call is the 32nd and samples are dropped. -/
theorem C282_knn_adwin_differs : ∃ s s₁ s₂ s₃ : Lazy.KA Nat,
    Lazy.KA.fits (Adwin.realCut (1 / 500)) 1000 3 newest Lazy.KA.new calm = .ok s ∧
    s.fit (Adwin.realCut (1 / 500)) 1000 3 newest (onemore ++ upset) none = .ok s₁ ∧
    s.fit (Adwin.realCut (1 / 500)) 1000 3 newest onemore none = .ok s₂ ∧
    s₂.fit (Adwin.realCut (1 / 500)) 1000 3 newest upset none = .ok s₃ ∧
    s₁.win = (calm.map Prod.fst).flatten ++ onemore ++ upset ∧ s₃.win.length < s₁.win.length := by
  have snoc : ∀ (cut : Adwin.Cut) (cs : List (List (Nat × Nat) × Option (List Nat))) (c : List (Nat × Nat)) (t u v : Lazy.KA Nat),
      Lazy.KA.fits cut 1000 3 newest t cs = .ok u → Lazy.KA.fits cut 1000 3 newest t (cs ++ [(c, none)]) = .ok v →
      u.fit cut 1000 3 newest c none = .ok v := by
    intro cut cs c
    induction cs with
    | nil =>
      intro t u v h1 h2
      simp only [Lazy.KA.fits, Except.ok.injEq] at h1
      subst h1
      simp only [List.nil_append, Lazy.KA.fits] at h2
      split at h2
      · cases h2
      · rename_i hv
        rw [hv]; exact h2
    | cons d cs ih =>
      intro t u v h1 h2
      rw [List.cons_append, Lazy.KA.fits] at h2
      rw [Lazy.KA.fits] at h1
      cases hf : t.fit cut 1000 3 newest d.1 d.2 with
      | error e => rw [hf] at h1; cases h1
      | ok t' =>
        rw [hf] at h1 h2
        exact ih t' u v h1 h2
  have some_ok : ∀ {α : Type} (e : Except PyErr α), e.toOption.isSome = true → ∃ a, e = .ok a := by
    intro α e h
    cases e with
    | error e => cases h
    | ok a => exact ⟨a, rfl⟩
  have ea := early (Adwin.realCut (1 / 500)) 1000 3 newest calm Lazy.KA.new rfl (by decide +kernel)
  have eb := early (Adwin.realCut (1 / 500)) 1000 3 newest (calm ++ [(onemore, none)]) Lazy.KA.new rfl (by decide +kernel)
  have ec := early (Adwin.realCut (1 / 500)) 1000 3 newest (calm ++ [(onemore ++ upset, none)]) Lazy.KA.new rfl (by decide +kernel)
  obtain ⟨s, hs⟩ := some_ok (Lazy.KA.fits Adwin.never 1000 3 newest Lazy.KA.new calm) (by decide +kernel)
  obtain ⟨s₁, hs₁⟩ := some_ok (Lazy.KA.fits Adwin.never 1000 3 newest Lazy.KA.new (calm ++ [(onemore ++ upset, none)])) (by decide +kernel)
  obtain ⟨s₂, hs₂⟩ := some_ok (Lazy.KA.fits Adwin.never 1000 3 newest Lazy.KA.new (calm ++ [(onemore, none)])) (by decide +kernel)
  obtain ⟨t, ht⟩ := some_ok half (by decide +kernel)
  have htl : (half.toOption.map fun t => t.win.length) = some 130 := by decide +kernel
  rw [ht] at htl
  replace htl : t.win.length = 130 := Option.some.inj htl
  rw [hs] at ea
  rw [hs₂] at eb
  rw [hs₁] at ec
  have hw := (Lazy.C281_few_calls _ _ _ _ _ (by decide +kernel) _ ec).1
  have hall : lastN 1000 ((calm ++ [(onemore ++ upset, none)]).map Prod.fst).flatten = (calm.map Prod.fst).flatten ++ onemore ++ upset := by
    decide +kernel
  have hlen : ((calm.map Prod.fst).flatten ++ onemore ++ upset).length = 130 := by decide +kernel
  rw [hall] at hw
  have hr : Lazy.KA.rows 1000 3 newest s₂ upset = .ok t := by
    have : half = Lazy.KA.rows 1000 3 newest s₂ upset := by
      unfold half
      rw [hs₂]
    rw [← this, ht]
  obtain ⟨d, w, _, hi, hc, _, _, hf⟩ := Adwin.quiet_state story (by intro c h; revert h; simp [story]) upsetting (by decide +kernel)
  simp only [upsetting, Bool.and_eq_true, decide_eq_true_eq, List.any_eq_true] at hf
  obtain ⟨⟨⟨⟨f0, f1⟩, f2⟩, f3⟩, k, _, ⟨f5, f6⟩, f7⟩ := hf
  rw [ht] at f0
  replace f0 : t.det = d := Option.some.inj f0
  obtain ⟨b, d', q1, q2⟩ := Adwin.answer_iff (Adwin.realCut (1 / 500)) hi hc
  have hb : b = true := by
    refine q2.mpr ⟨⟨f2, by omega⟩, (Adwin.visited 0 d.rows).take (k + 1), (Adwin.visited 0 d.rows).drop (k + 1),
      (List.take_append_drop _ _).symm, ?_, f5, f6, ?_⟩
    · intro hh; rw [hh] at f5; simp [Adwin.vsize] at f5
    · rw [Adwin.realCut, decide_eq_true_eq]
      exact Adwin.cut_of_test _ _ _ _ _ _ (by omega) (by omega) f5 f6 (by positivity) f7
  subst hb
  obtain ⟨b', d'', w', r, c1, c2, c3, _, _, _, c7, _⟩ := Adwin.check_ok (Adwin.realCut (1 / 500)) hi hc (d.width + 1) (by omega)
  rw [q1] at c1
  simp only [Option.some.injEq, Except.ok.injEq, Prod.mk.injEq] at c1
  obtain ⟨rfl, rfl⟩ := c1
  have hr0 : 0 < r.length := List.length_pos_iff.mpr (c7.mp rfl)
  have hl := congrArg List.length c2
  rw [List.length_append, ← c3.width, ← hi.width] at hl
  refine ⟨s, s₁, s₂, ⟨Lazy.shrink 3 true d'.width t.win, t.classes, d'⟩, ea, snoc _ _ _ _ _ _ ea ec, snoc _ _ _ _ _ _ ea eb, ?_, hw, ?_⟩
  · unfold Lazy.KA.fit
    have : (⟨s₂.win, s₂.classes ++ (none : Option (List Nat)).getD [], s₂.det⟩ : Lazy.KA Nat) = s₂ := by
      simp
    rw [this, hr]
    simp only
    rw [if_pos (by omega), f0]
    have : Adwin.step (Adwin.realCut (1 / 500)) d .check = some (.ok (true, d')) := q1
    rw [this]
  · simp only
    rw [Lazy.C61_shrink, if_pos ⟨by omega, rfl⟩, hw, hlen]
    simp only [lastN, List.length_drop]
    omega

end Verif.Meta.Parts
