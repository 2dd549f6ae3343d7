import Verif.Common
import Mathlib.Algebra.Order.Field.Rat
import Mathlib.Data.List.Nodup
import Mathlib.Data.List.Perm.Subperm
import Mathlib.Tactic.Linarith
import Mathlib.Tactic.NormNum

/-!
# Size of an object (C225)

Model of `calculate_object_size`, `src/skmultiflow/utils/utils.py` 86-149, the function
behind the `model_size` metric and the memory management of the trees.

Objects are numbers (their `id`), a heap says for each of them what `sys.getsizeof`
answers and how the function looks inside it.  The heap does not change during the
call; that objects made while an array is iterated may reuse the `id` of objects that
are gone is not modelled.
-/

namespace Verif.Utils.Size

open Verif

/-- How the function looks inside an object, utils.py 129-140. -/
inductive Kind
  /-- a dictionary, by its items -/
  | dict (items : List (Nat × Nat))
  /-- an object with a `__dict__` -/
  | inst (d : Nat)
  /-- anything else with `__iter__`, apart from strings, by what the iteration gives -/
  | iter (l : List Nat)
  /-- something with `__iter__` whose iteration raises `TypeError`, as a numpy array of
  dimension zero -/
  | noIter
  /-- everything else -/
  | atom
deriving DecidableEq

/-- The heap. -/
structure Heap where
  size : Nat → Nat
  kind : Nat → Kind

/-- What is appended to `to_visit` for an object, utils.py 129-140: the values of a
dictionary, then its keys. -/
def Heap.inside (h : Heap) (o : Nat) : Except PyErr (List Nat) :=
  match h.kind o with
  | .dict items => .ok (items.map (·.2) ++ items.map (·.1))
  | .inst d => .ok [d]
  | .iter l => .ok l
  | .noIter => .error .typeError
  | .atom => .ok []

/-- `seen`, `to_visit` and `byte_size`, utils.py 106-108. -/
structure St where
  seen : List Nat
  toVisit : List Nat
  bytes : Nat

/-- One pass of the loop, utils.py 112-140, on a queue that is not empty. -/
def step (h : Heap) (s : St) (o : Nat) (rest : List Nat) : Except PyErr St :=
  if o ∈ s.seen then .ok ⟨s.seen, rest, s.bytes⟩
  else
    match h.inside o with
    | .error e => .error e
    | .ok l => .ok ⟨o :: s.seen, rest ++ l, s.bytes + h.size o⟩

/-- The loop of utils.py 112-140 for at most `n` passes; `none` when it is not over. -/
def loop (h : Heap) : Nat → St → Option (Except PyErr Nat)
  | 0, _ => none
  | n + 1, s =>
    match s.toVisit with
    | [] => some (.ok s.bytes)
    | o :: rest =>
      match step h s o rest with
      | .error e => some (.error e)
      | .ok s' => loop h n s'

/-- The argument `unit`. -/
inductive U
  | kB | MB | other
deriving DecidableEq

/-- `final_size`, utils.py 142-147. -/
def inUnit (u : U) (b : Nat) : ℚ :=
  match u with
  | .kB => (b : ℚ) / 1024
  | .MB => (b : ℚ) / 2 ^ 20
  | .other => b

/-- `calculate_object_size(obj, unit)`, utils.py 106-149, for at most `n` passes. -/
def objectSize (h : Heap) (u : U) (o : Nat) (n : Nat) : Option (Except PyErr ℚ) :=
  (loop h n ⟨[], [o], 0⟩).map fun r => r.map (inUnit u)

/-! ## Specification -/

/-- `b` is held by `a`: a key or a value of a dictionary, the dictionary of an object's
attributes, an element of a collection. -/
inductive Holds (h : Heap) : Nat → Nat → Prop
  | value {a b k items} : h.kind a = .dict items → (k, b) ∈ items → Holds h a b
  | key {a b v items} : h.kind a = .dict items → (b, v) ∈ items → Holds h a b
  | attrs {a b} : h.kind a = .inst b → Holds h a b
  | elem {a b l} : h.kind a = .iter l → b ∈ l → Holds h a b

/-- `b` belongs to `a`: it is `a` itself or held by something that belongs to `a`. -/
inductive Part (h : Heap) (a : Nat) : Nat → Prop
  | self : Part h a a
  | step {b c} : Part h a b → Holds h b c → Part h a c

/-! ## Proofs -/

theorem inside_iff {h : Heap} {o : Nat} {l : List Nat} (e : h.inside o = .ok l) (b : Nat) :
    b ∈ l ↔ Holds h o b := by
  unfold Heap.inside at e
  constructor
  · intro hb
    cases hk : h.kind o with
    | dict items =>
      rw [hk] at e; cases e
      rcases List.mem_append.mp hb with hb | hb
      · obtain ⟨⟨k, v⟩, hm, rfl⟩ := List.mem_map.mp hb
        exact .value hk hm
      · obtain ⟨⟨k, v⟩, hm, rfl⟩ := List.mem_map.mp hb
        exact .key hk hm
    | inst d => rw [hk] at e; cases e; rw [List.mem_singleton] at hb; subst hb; exact .attrs hk
    | iter l' => rw [hk] at e; cases e; exact .elem hk hb
    | noIter => rw [hk] at e; cases e
    | atom => rw [hk] at e; cases e; simp at hb
  · intro hh
    cases hh with
    | value hk hm =>
      rw [hk] at e; cases e
      exact List.mem_append_left _ (List.mem_map.mpr ⟨_, hm, rfl⟩)
    | key hk hm =>
      rw [hk] at e; cases e
      exact List.mem_append_right _ (List.mem_map.mpr ⟨_, hm, rfl⟩)
    | attrs hk => rw [hk] at e; cases e; simp
    | elem hk hm => rw [hk] at e; cases e; exact hm

theorem inside_error {h : Heap} {o : Nat} {x : PyErr} (e : h.inside o = .error x) :
    h.kind o = .noIter ∧ x = .typeError := by
  unfold Heap.inside at e
  cases hk : h.kind o <;> rw [hk] at e <;> cases e
  exact ⟨rfl, rfl⟩

/-- What holds at the start of every pass. -/
structure Inv (h : Heap) (root : Nat) (s : St) : Prop where
  nodup : s.seen.Nodup
  bytes : s.bytes = (s.seen.map h.size).sum
  seen : ∀ o ∈ s.seen, Part h root o ∧ h.kind o ≠ .noIter
  queue : ∀ o ∈ s.toVisit, Part h root o
  closed : ∀ o ∈ s.seen, ∀ b, Holds h o b → b ∈ s.seen ∨ b ∈ s.toVisit
  root : root ∈ s.seen ∨ root ∈ s.toVisit

theorem inv_step {h : Heap} {root o : Nat} {s s' : St} {rest : List Nat}
    (hi : Inv h root s) (hq : s.toVisit = o :: rest) (e : step h s o rest = .ok s') :
    Inv h root s' := by
  have hroot : root ∈ s.seen ∨ root = o ∨ root ∈ rest := by
    rcases hi.root with h1 | h1
    · exact .inl h1
    · rw [hq] at h1; exact .inr (List.mem_cons.mp h1)
  unfold step at e
  by_cases hs : o ∈ s.seen
  · rw [if_pos hs] at e; cases e
    refine ⟨hi.nodup, hi.bytes, hi.seen, fun b hb => hi.queue b (by rw [hq]; simp [hb]), ?_, ?_⟩
    · intro a ha b hab
      rcases hi.closed a ha b hab with h1 | h1
      · exact .inl h1
      · rw [hq] at h1
        rcases List.mem_cons.mp h1 with rfl | h1
        · exact .inl hs
        · exact .inr h1
    · rcases hroot with h1 | h1 | h1
      · exact .inl h1
      · subst h1; exact .inl hs
      · exact .inr h1
  · rw [if_neg hs] at e
    have po : Part h root o := hi.queue o (by rw [hq]; simp)
    cases hin : h.inside o with
    | error x => rw [hin] at e; cases e
    | ok l =>
      rw [hin] at e; cases e
      refine ⟨List.nodup_cons.mpr ⟨hs, hi.nodup⟩, ?_, ?_, ?_, ?_, ?_⟩
      · simp only [List.map_cons, List.sum_cons, hi.bytes]; omega
      · intro a ha
        rcases List.mem_cons.mp ha with rfl | ha
        · refine ⟨po, fun hk => ?_⟩
          unfold Heap.inside at hin; rw [hk] at hin; cases hin
        · exact hi.seen a ha
      · intro b hb
        rcases List.mem_append.mp hb with hb | hb
        · exact hi.queue b (by rw [hq]; simp [hb])
        · exact .step po ((inside_iff hin b).mp hb)
      · intro a ha b hab
        rcases List.mem_cons.mp ha with rfl | ha
        · exact .inr (List.mem_append_right _ ((inside_iff hin b).mpr hab))
        · rcases hi.closed a ha b hab with h1 | h1
          · exact .inl (List.mem_cons_of_mem _ h1)
          · rw [hq] at h1
            rcases List.mem_cons.mp h1 with rfl | h1
            · exact .inl (by simp)
            · exact .inr (List.mem_append_left _ h1)
      · rcases hroot with h1 | h1 | h1
        · exact .inl (List.mem_cons_of_mem _ h1)
        · subst h1; exact .inl (by simp)
        · exact .inr (List.mem_append_left _ h1)

/-- The loop ends, and how. -/
theorem loop_ends {h : Heap} {root : Nat} (parts : List Nat)
    (hp : ∀ o, Part h root o → o ∈ parts) :
    ∀ k (s : St), Inv h root s → parts.length - s.seen.length ≤ k →
      ∀ q, s.toVisit.length ≤ q →
      ∃ n, (∃ s', Inv h root s' ∧ s'.toVisit = [] ∧ ∀ m, loop h (n + m) s = some (.ok s'.bytes)) ∨
        ((∃ o, Part h root o ∧ h.kind o = .noIter) ∧
          ∀ m, loop h (n + m) s = some (.error .typeError)) := by
  intro k
  induction k with
  | zero =>
    intro s hi hk q
    induction q generalizing s with
    | zero =>
      intro hq
      have he : s.toVisit = [] := List.length_eq_zero_iff.mp (by omega)
      exact ⟨1, .inl ⟨s, hi, he, fun m => by rw [Nat.add_comm, loop, he]⟩⟩
    | succ q ih =>
      intro hq
      cases hv : s.toVisit with
      | nil => exact ⟨1, .inl ⟨s, hi, hv, fun m => by rw [Nat.add_comm, loop, hv]⟩⟩
      | cons o rest =>
        have hsub : (s.seen).Subperm parts := hi.nodup.subperm fun a ha => hp a (hi.seen a ha).1
        by_cases ho : o ∈ s.seen
        · have hst : step h s o rest = .ok ⟨s.seen, rest, s.bytes⟩ := by rw [step, if_pos ho]
          have hi' := inv_step hi hv hst
          rw [hv, List.length_cons] at hq
          obtain ⟨n, hn⟩ := ih ⟨s.seen, rest, s.bytes⟩ hi' hk (Nat.le_of_succ_le_succ hq)
          refine ⟨n + 1, ?_⟩
          rcases hn with ⟨s', h1, h2, h3⟩ | ⟨h1, h3⟩
          · refine .inl ⟨s', h1, h2, fun m => ?_⟩
            rw [show n + 1 + m = (n + m) + 1 by omega, loop, hv]
            simp only [hst]; exact h3 m
          · refine .inr ⟨h1, fun m => ?_⟩
            rw [show n + 1 + m = (n + m) + 1 by omega, loop, hv]
            simp only [hst]; exact h3 m
        · exfalso
          have hsub' : (o :: s.seen).Subperm parts := by
            apply (List.nodup_cons.mpr ⟨ho, hi.nodup⟩).subperm
            intro a ha
            rcases List.mem_cons.mp ha with rfl | ha
            · exact hp a (hi.queue a (by rw [hv]; simp))
            · exact hp a (hi.seen a ha).1
          have := hsub'.length_le
          simp only [List.length_cons] at this
          omega
  | succ k ihk =>
    intro s hi hk q
    induction q generalizing s with
    | zero =>
      intro hq
      have he : s.toVisit = [] := List.length_eq_zero_iff.mp (by omega)
      exact ⟨1, .inl ⟨s, hi, he, fun m => by rw [Nat.add_comm, loop, he]⟩⟩
    | succ q ih =>
      intro hq
      cases hv : s.toVisit with
      | nil => exact ⟨1, .inl ⟨s, hi, hv, fun m => by rw [Nat.add_comm, loop, hv]⟩⟩
      | cons o rest =>
        cases hst : step h s o rest with
        | error x =>
          have ho : o ∉ s.seen := by
            intro ho; rw [step, if_pos ho] at hst; cases hst
          rw [step, if_neg ho] at hst
          cases hin : h.inside o with
          | ok l => rw [hin] at hst; cases hst
          | error y =>
            rw [hin] at hst; cases hst
            obtain ⟨e1, e2⟩ := inside_error hin
            refine ⟨1, .inr ⟨⟨o, hi.queue o (by rw [hv]; simp), e1⟩, fun m => ?_⟩⟩
            rw [Nat.add_comm, loop, hv]
            simp only [step, if_neg ho, hin, e2]
        | ok t =>
          have hi' := inv_step hi hv hst
          have main : ∃ n, (∃ s', Inv h root s' ∧ s'.toVisit = [] ∧
                ∀ m, loop h (n + m) t = some (.ok s'.bytes)) ∨
              ((∃ o, Part h root o ∧ h.kind o = .noIter) ∧
                ∀ m, loop h (n + m) t = some (.error .typeError)) := by
            by_cases ho : o ∈ s.seen
            · rw [step, if_pos ho] at hst; cases hst
              rw [hv, List.length_cons] at hq
              exact ih _ hi' hk (Nat.le_of_succ_le_succ hq)
            · rw [step, if_neg ho] at hst
              cases hin : h.inside o with
              | error y => rw [hin] at hst; cases hst
              | ok l =>
                rw [hin] at hst; cases hst
                refine ihk _ hi' ?_ _ (le_refl _)
                simp only [List.length_cons]; omega
          obtain ⟨n, hn⟩ := main
          refine ⟨n + 1, ?_⟩
          rcases hn with ⟨s', h1, h2, h3⟩ | ⟨h1, h3⟩
          · refine .inl ⟨s', h1, h2, fun m => ?_⟩
            rw [show n + 1 + m = (n + m) + 1 by omega, loop, hv]
            simp only [hst]; exact h3 m
          · refine .inr ⟨h1, fun m => ?_⟩
            rw [show n + 1 + m = (n + m) + 1 by omega, loop, hv]
            simp only [hst]; exact h3 m

theorem part_seen {h : Heap} {root : Nat} {s : St} (hi : Inv h root s) (he : s.toVisit = []) :
    ∀ o, Part h root o → o ∈ s.seen := by
  intro o ho
  induction ho with
  | self =>
    rcases hi.root with h1 | h1
    · exact h1
    · rw [he] at h1; simp at h1
  | step _ hh ih =>
    rcases hi.closed _ ih _ hh with h1 | h1
    · exact h1
    · rw [he] at h1; simp at h1

/-- **C225**: `calculate_object_size` of an object with finitely many parts always ends,
however they are shared or refer to each other in circles.  When every part can be
iterated the answer is the sum of the sizes of the parts, each counted exactly once
(`parts` may list them in any order), in bytes, divided by 1024 for `'kB'` and by 2²⁰
for `'MB'`; when some part refuses to be iterated the call raises `TypeError`. -/
theorem C225_object_size (h : Heap) (u : U) (o : Nat) (parts : List Nat) (hn : parts.Nodup)
    (hp : ∀ b, b ∈ parts ↔ Part h o b) :
    ∃ n, ∀ m, n ≤ m → objectSize h u o m = some
      (if ∃ b ∈ parts, h.kind b = .noIter then .error .typeError
       else .ok (match u with
        | .kB => ((parts.map h.size).sum : ℚ) / 1024
        | .MB => ((parts.map h.size).sum : ℚ) / 1048576
        | .other => (parts.map h.size).sum)) := by
  have hi : Inv h o ⟨[], [o], 0⟩ :=
    ⟨List.nodup_nil, rfl, by simp, by simp [Part.self], by simp, .inr (by simp)⟩
  obtain ⟨n, hh⟩ := loop_ends parts (fun b hb => (hp b).mpr hb) _ _ hi (le_refl _) _ (le_refl _)
  refine ⟨n, fun m hm => ?_⟩
  obtain ⟨d, rfl⟩ := Nat.exists_eq_add_of_le hm
  unfold objectSize
  rcases hh with ⟨s', h1, h2, h3⟩ | ⟨⟨b, hb, hk⟩, h3⟩
  · rw [h3 d]
    have hno : ¬ ∃ b ∈ parts, h.kind b = .noIter := by
      rintro ⟨b, hb, hk⟩
      exact (h1.seen b (part_seen h1 h2 b ((hp b).mp hb))).2 hk
    have hperm : s'.seen.Perm parts :=
      (List.perm_ext_iff_of_nodup h1.nodup hn).mpr fun b =>
        ⟨fun hb => (hp b).mpr (h1.seen b hb).1, fun hb => part_seen h1 h2 b ((hp b).mp hb)⟩
    have hs : s'.bytes = (parts.map h.size).sum := by
      rw [h1.bytes]; exact (hperm.map h.size).sum_eq
    rw [if_neg hno, hs]
    cases u <;> simp [Except.map, inUnit]
    norm_num
  · rw [h3 d, if_pos ⟨b, (hp b).mpr hb, hk⟩]; rfl

/-- A model: object 0 whose attribute dictionary 1 holds, under the names 2 and 3, a list
4 of the list itself and of the object 5, and the object 5. -/
def exHeap : Heap where
  size := fun o => 10 * o + 1
  kind := fun o =>
    if o = 0 then .inst 1
    else if o = 1 then .dict [(2, 4), (3, 5)]
    else if o = 4 then .iter [4, 5, 0]
    else .atom

example : objectSize exHeap .other 0 20 = some (.ok 156) ∧
    objectSize exHeap .kB 0 20 = some (.ok (156 / 1024)) := by decide +kernel

/-- The hypotheses of the theorem are met by it. -/
example : ∀ b, b ∈ [0, 1, 2, 3, 4, 5] ↔ Part exHeap 0 b := by
  have h1 : Part exHeap 0 1 := .step .self (.attrs rfl)
  have h4 : Part exHeap 0 4 := .step h1 (.value (k := 2) rfl (by simp))
  intro b
  constructor
  · intro hb
    simp only [List.mem_cons, List.not_mem_nil, or_false] at hb
    rcases hb with rfl | rfl | rfl | rfl | rfl | rfl
    · exact .self
    · exact h1
    · exact .step h1 (.key (v := 4) rfl (by simp))
    · exact .step h1 (.key (v := 5) rfl (by simp))
    · exact h4
    · exact .step h4 (.elem rfl (by simp))
  · intro hb
    induction hb with
    | self => simp
    | step _ hh ih =>
      rename_i a c _
      simp only [List.mem_cons, List.not_mem_nil, or_false] at ih
      rcases ih with rfl | rfl | rfl | rfl | rfl | rfl <;> cases hh <;>
        simp_all [exHeap]
      · rename_i hk hm
        rcases hk with rfl
        simp at hm; omega
      · rename_i hk hm
        rcases hk with rfl
        simp at hm; omega
      · rename_i hk hm
        rcases hk with rfl
        simp at hm; omega

/-- A model that holds a numpy array of dimension zero cannot be measured. -/
example : objectSize ⟨fun _ => 8, fun o => if o = 0 then .iter [1] else .noIter⟩ .kB 0 20 =
    some (.error .typeError) := by decide +kernel

end Verif.Utils.Size
