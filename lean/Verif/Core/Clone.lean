import Verif.Common

/-!
Model of `get_params` and `clone` (core/base.py 34-81, 186-207); C187.

An estimator is a class, the arguments its constructor got and what it has learned (a number, 0 for
nothing).  What a constructor does with an argument is one of four things, see `Store`.  Simplified:
containers of estimators (base.py 56-57) and objects without `get_params` passed directly to `clone`
(TypeError, 58-65) are left out; the check `param1 is not param2` is modelled by whether the attribute
read back is the argument object itself.
-/

namespace Verif.Core.Clone

/-- Values of parameters: `None`, plain data, or an estimator of a class with constructor arguments and
learned state. -/
inductive Val (κ : Type) where
  | none : Val κ
  | data : Nat → Val κ
  | est : κ → List (Val κ) → Nat → Val κ

/-- What a constructor does with an argument `p`. -/
inductive Store (κ : Type) where
  /-- `self.p = p`. -/
  | keep : Store κ
  /-- The argument is stored under another name only: `getattr(self, "p", None)` is `None`. -/
  | drop : Store κ
  /-- `self.p` is the argument if it satisfies the condition, otherwise some other object. -/
  | change : (Val κ → Bool) → (Val κ → Val κ) → Store κ

/-- `getattr(self, key, None)` (base.py 202) after construction with argument `v`. -/
def Store.get {κ : Type} : Store κ → Val κ → Val κ
  | .keep, v => v
  | .drop, _ => .none
  | .change ok f, v => if ok v then v else f v

/-- Is the attribute read back the argument itself (base.py 74-76)?  `None` is always itself. -/
def Store.same {κ : Type} : Store κ → Val κ → Bool
  | .keep, _ => true
  | .drop, v => match v with | .none => true | _ => false
  | .change ok _, v => ok v

/-- The classes: what the constructor does with its arguments, and the error it raises, if any. -/
structure Table (κ : Type) where
  sig : κ → List (Store κ)
  boot : κ → List (Val κ) → Option PyErr

variable {κ : Type}

/-- The values `get_params(deep=False)` reports for the constructor arguments (base.py 200-206). -/
def params (ss : List (Store κ)) (args : List (Val κ)) : List (Val κ) := List.zipWith Store.get ss args

mutual
/-- `clone(param, safe=False)` (base.py 34-81); plain data is deep-copied. -/
def clone (T : Table κ) : Val κ → Except PyErr (Val κ)
  | .none => .ok .none
  | .data n => .ok (.data n)
  | .est k args _ =>
    match cloneArgs T (T.sig k) args with
    | .error e => .error e
    | .ok new =>
      match T.boot k new with
      | some e => .error e
      | none => if (List.zipWith Store.same (T.sig k) new).all id then .ok (.est k new 0) else .error .other
/-- Cloning the parameters `get_params` reports (base.py 67-69).  A parameter is read back from the
object, so a dropped one is `None` and a changed one the changed value (which is plain data). -/
def cloneArgs (T : Table κ) : List (Store κ) → List (Val κ) → Except PyErr (List (Val κ))
  | [], _ => .ok []
  | _ :: _, [] => .ok []
  | .keep :: ss, a :: args =>
    match clone T a with
    | .error e => .error e
    | .ok v => (cloneArgs T ss args).map (v :: ·)
  | .drop :: ss, _ :: args => (cloneArgs T ss args).map (.none :: ·)
  | .change ok f :: ss, a :: args =>
    match clone T a with
    | .error e => if ok a then .error e else (cloneArgs T ss args).map (f a :: ·)
    | .ok v => (cloneArgs T ss args).map ((if ok a then v else f a) :: ·)
end

/-! ### Specification -/

mutual
/-- The same estimator, nothing learned. -/
def Val.unfitted : Val κ → Val κ
  | .none => .none
  | .data n => .data n
  | .est k args _ => .est k (unfittedArgs args) 0
/-- See `unfitted`. -/
def unfittedArgs : List (Val κ) → List (Val κ)
  | [] => []
  | a :: args => a.unfitted :: unfittedArgs args
end

mutual
/-- Every class occurring stores its arguments as they are, gets as many as it has parameters, and its
constructor accepts them. -/
def Val.Plain (T : Table κ) : Val κ → Prop
  | .none => True
  | .data _ => True
  | .est k args _ => (∀ s ∈ T.sig k, s = .keep) ∧ (T.sig k).length = args.length ∧ T.boot k (unfittedArgs args) = none ∧ PlainArgs T args
/-- See `Plain`. -/
def PlainArgs (T : Table κ) : List (Val κ) → Prop
  | [] => True
  | a :: args => a.Plain T ∧ PlainArgs T args
end

theorem all_same : ∀ (ss : List (Store κ)) (new : List (Val κ)), (∀ s ∈ ss, s = .keep) → (List.zipWith Store.same ss new).all id = true
  | [], _, _ => by simp
  | s :: ss, [], _ => by simp
  | s :: ss, v :: new, h => by
    have h1 : s = .keep := h s List.mem_cons_self
    have h2 := all_same ss new fun s' hs' => h s' (List.mem_cons_of_mem _ hs')
    simp only [List.zipWith_cons_cons, List.all_cons, h2, Bool.and_true, h1]
    rfl

mutual
theorem clone_plain (T : Table κ) : ∀ v : Val κ, v.Plain T → clone T v = .ok v.unfitted
  | .none, _ => by rw [clone, Val.unfitted]
  | .data n, _ => by rw [clone, Val.unfitted]
  | .est k args st, h => by
    rw [Val.Plain] at h
    obtain ⟨h1, h2, h3, h4⟩ := h
    rw [clone, cloneArgs_plain T (T.sig k) args h1 h2 h4]
    simp only [h3, all_same _ _ h1, if_true, Val.unfitted]
theorem cloneArgs_plain (T : Table κ) : ∀ (ss : List (Store κ)) (args : List (Val κ)), (∀ s ∈ ss, s = .keep) → ss.length = args.length →
    PlainArgs T args → cloneArgs T ss args = .ok (unfittedArgs args)
  | [], [], _, _, _ => by rw [cloneArgs, unfittedArgs]
  | [], _ :: _, _, h, _ => by simp at h
  | _ :: _, [], _, h, _ => by simp at h
  | s :: ss, a :: args, h1, h2, h3 => by
    rw [PlainArgs] at h3
    have hs : s = .keep := h1 s List.mem_cons_self
    subst hs
    have h4 := clone_plain T a h3.1
    have h5 := cloneArgs_plain T ss args (fun s' hs' => h1 s' (List.mem_cons_of_mem _ hs')) (by simpa using h2) h3.2
    rw [cloneArgs]
    simp only [h4, h5, unfittedArgs, Except.map]
end

/-- C187 (partial): `clone` of an estimator, all of whose classes (also of nested estimators) store their
constructor arguments under the parameters' names, succeeds and is the estimator built with the same
arguments, nested ones cloned likewise, with nothing learned.  Missing (see the violations): classes
that do not. -/
theorem C187_clone_partial (T : Table κ) (v : Val κ) (h : v.Plain T) : clone T v = .ok v.unfitted := clone_plain T v h

/-- A class that stores some argument under another name only: if it can be cloned at all, that
argument of the clone is `None`, whatever it was. -/
theorem cloneArgs_drop (T : Table κ) : ∀ (ss : List (Store κ)) (args new : List (Val κ)) (i : Nat),
    cloneArgs T ss args = .ok new → ss[i]? = some .drop → i < args.length → new[i]? = some .none
  | [], _, _, _, _, hi, _ => by simp at hi
  | _ :: _, [], _, _, _, _, hl => by simp at hl
  | s :: ss, a :: args, new, i, h, hi, hl => by
    have key : ∃ v vs, cloneArgs T ss args = .ok vs ∧ new = v :: vs ∧ (s = .drop → v = .none) := by
      cases hr : cloneArgs T ss args with
      | error e =>
        exfalso
        cases s with
        | keep =>
          rw [cloneArgs] at h
          cases hv : clone T a with
          | error e => rw [hv] at h; simp at h
          | ok v => rw [hv, hr] at h; simp [Except.map] at h
        | drop => rw [cloneArgs, hr] at h; simp [Except.map] at h
        | change ok f =>
          rw [cloneArgs] at h
          cases hv : clone T a with
          | error e =>
            rw [hv, hr] at h
            by_cases ho : ok a = true
            · simp [ho] at h
            · simp [ho, Except.map] at h
          | ok v => rw [hv, hr] at h; simp [Except.map] at h
      | ok vs =>
        cases s with
        | keep =>
          rw [cloneArgs] at h
          cases hv : clone T a with
          | error e => rw [hv] at h; simp at h
          | ok v => rw [hv, hr] at h; simp only [Except.map, Except.ok.injEq] at h; exact ⟨v, vs, rfl, h.symm, by simp⟩
        | drop => rw [cloneArgs, hr] at h; simp only [Except.map, Except.ok.injEq] at h; exact ⟨.none, vs, rfl, h.symm, fun _ => rfl⟩
        | change ok f =>
          rw [cloneArgs] at h
          cases hv : clone T a with
          | error e =>
            rw [hv, hr] at h
            by_cases ho : ok a = true
            · simp [ho] at h
            · simp only [ho, Except.map, Except.ok.injEq] at h; exact ⟨f a, vs, rfl, by simpa using h.symm, by simp⟩
          | ok v => rw [hv, hr] at h; simp only [Except.map, Except.ok.injEq] at h; exact ⟨_, vs, rfl, h.symm, by simp⟩
    obtain ⟨v, vs, h1, rfl, h3⟩ := key
    cases i with
    | zero =>
      simp only [List.getElem?_cons_zero, Option.some.injEq] at hi
      rw [h3 hi]
      rfl
    | succ i =>
      rw [List.getElem?_cons_succ] at hi ⊢
      exact cloneArgs_drop T ss args vs i h1 hi (by simpa using hl)

/-- C187 (violated, in general): a class that keeps a constructor argument under another name only: the clone,
if there is one, has `None` for it, whatever the original was built with. -/
theorem C187_dropped_violated (T : Table κ) (k : κ) (args : List (Val κ)) (st : Nat) (i : Nat) (hi : (T.sig k)[i]? = some .drop)
    (hl : i < args.length) (w : Val κ) (h : clone T (.est k args st) = .ok w) :
    ∃ new, w = .est k new 0 ∧ new[i]? = some .none := by
  rw [clone] at h
  cases hc : cloneArgs T (T.sig k) args with
  | error e => rw [hc] at h; simp at h
  | ok new =>
    rw [hc] at h
    simp only [] at h
    cases hb : T.boot k new with
    | some e => rw [hb] at h; simp at h
    | none =>
      rw [hb] at h
      simp only [] at h
      by_cases ha : (List.zipWith Store.same (T.sig k) new).all id = true
      · rw [if_pos ha, Except.ok.injEq] at h
        exact ⟨new, h.symm, cloneArgs_drop T _ _ _ i hc hi hl⟩
      · rw [if_neg ha] at h; simp at h

/-! ### Classes of the library -/

/-- Some classes, with the parameters in the order of the constructor. -/
inductive Cls where
  /-- `ADWIN(delta)`, drift_detection/adwin.py 57-60. -/
  | adwin
  /-- `DDM(min_num_instances, warning_level, out_control_level)`, drift_detection/ddm.py 80-91. -/
  | ddm
  /-- `OzaBaggingClassifier(base_estimator, n_estimators, random_state)`, meta/oza_bagging.py 101-111. -/
  | ozaBagging
  /-- `OnlineBoostingClassifier(base_estimator, n_estimators, drift_detection, random_state)`,
  meta/online_boosting.py 113-125. -/
  | onlineBoosting
  /-- `OnlineSMOTEBaggingClassifier(base_estimator, n_estimators, sampling_rate, drift_detection, random_state)`,
  meta/online_smote_bagging.py 108-120. -/
  | smoteBagging
  /-- `SAMKNNClassifier(n_neighbors, weighting, max_window_size, ltm_size, min_stm_size, stm_size_option, use_ltm)`,
  lazy/sam_knn.py 105-125. -/
  | samKNN
  /-- `LearnPPNSEClassifier(base_estimator, window_size, slope, crossing_point, n_estimators, pruning)`,
  meta/learn_nse.py 90-111. -/
  | learnNSE
  /-- `MissingValuesCleaner(missing_value, strategy, window_size, new_value)`, transform/missing_values_cleaner.py 72-80;
  `data 0` stands for a list. -/
  | cleaner

/-- Is the value a list (the model's `data 0`)? -/
def isList : Val Cls → Bool
  | .data 0 => true
  | _ => false

/-- The constructors. -/
def lib : Table Cls where
  sig
    | .adwin => [.keep]
    | .ddm => [.drop, .keep, .keep]
    | .ozaBagging => [.keep, .keep, .keep]
    | .onlineBoosting => [.keep, .drop, .keep, .keep]
    | .smoteBagging => [.keep, .keep, .keep, .keep, .drop]
    | .samKNN => [.keep, .keep, .drop, .keep, .keep, .keep, .keep]
    | .learnNSE => [.change (fun _ => false) id, .keep, .keep, .keep, .keep, .keep]
    | .cleaner => [.change isList (fun _ => .data 0), .keep, .keep, .keep]
  boot k (args : List (Val Cls)) := match k, args with
    | .samKNN, [_, _, .data _, _, _, _, _] => none
    | .samKNN, _ => some .typeError
    | _, _ => none

/-- The comparison `self.sample_count < self.min_instances` in `DDM.add_element` (ddm.py 143): comparing
with `None` raises. -/
def ddmReady (v : Val Cls) (sampleCount : Nat) : Except PyErr Bool :=
  match v with
  | .est .ddm (.data m :: _) _ => .ok (decide (m ≤ sampleCount))
  | _ => .error .typeError

/-- C187 (violated): a cloned DDM detector (streaming random patches clones its detectors) raises `TypeError` on
its first element, whatever `min_num_instances` was; the original compares the count with it. -/
theorem C187_ddm_violated (m w o : Nat) (st : Nat) :
    (∀ n, ddmReady (.est .ddm [.data m, .data w, .data o] st) n = .ok true ↔ m ≤ n) ∧
    ∃ d, clone lib (.est .ddm [.data m, .data w, .data o] st) = .ok d ∧ ∀ n, ddmReady d n = .error .typeError := by
  refine ⟨fun n => by simp [ddmReady], .est .ddm [.none, .data w, .data o] 0, ?_, fun n => rfl⟩
  simp [clone, cloneArgs, lib, Store.same, Except.map]

/-- C187 (violated): the clone of online boosting forgets the number of members. -/
theorem C187_online_boosting_violated (b n dd rs : Nat) (st : Nat) :
    clone lib (.est .onlineBoosting [.est .adwin [.data b] 0, .data n, .data dd, .data rs] st) =
      .ok (.est .onlineBoosting [.est .adwin [.data b] 0, .none, .data dd, .data rs] 0) := by
  simp [clone, cloneArgs, lib, Store.same, Except.map]

/-- C187 (violated): the clone of SMOTE bagging forgets the seed. -/
theorem C187_smote_violated (b n sr dd rs : Nat) (st : Nat) :
    clone lib (.est .smoteBagging [.data b, .data n, .data sr, .data dd, .data rs] st) =
      .ok (.est .smoteBagging [.data b, .data n, .data sr, .data dd, .none] 0) := by
  simp [clone, cloneArgs, lib, Store.same, Except.map]

/-- C187 (violated): SAM-kNN cannot be cloned (`TypeError`: the window size is `None`), nor can Learn++.NSE
(`RuntimeError`: the constructor copies the base estimator). -/
theorem C187_fails_violated (a b c d e f g : Nat) (st : Nat) :
    clone lib (.est .samKNN [.data a, .data b, .data c, .data d, .data e, .data f, .data g] st) = .error .typeError ∧
    clone lib (.est .learnNSE [.data a, .data b, .data c, .data d, .data e, .data f] st) = .error .other := by
  constructor <;> simp [clone, cloneArgs, lib, Store.same, Except.map]

/-- A nested estimator to which the partial theorem applies: bagging over bagging. -/
example : (Val.est Cls.ozaBagging [.est .ozaBagging [.est .adwin [.data 2] 7, .data 3, .none] 9, .data 10, .data 1] 5).Plain lib := by
  simp [Val.Plain, PlainArgs, lib]

/-- A list of missing values is kept, so the cleaner can be cloned after all. -/
example : clone lib (.est .cleaner [.data 5, .data 1, .data 2, .data 3] 4) = .ok (.est .cleaner [.data 0, .data 1, .data 2, .data 3] 0) := by
  simp [clone, cloneArgs, lib, Store.same, isList, Except.map]

end Verif.Core.Clone
