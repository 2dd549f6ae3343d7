import Verif.Trees.Known
import Mathlib.Data.Nat.Digits.Lemmas

/-!
Model of `trees/label_combination_hoeffding_tree.py` and `trees/_nodes/lc_htc_nodes.py`; C206.  The tree is a
Hoeffding tree (`Trees/Learn.lean`, `Trees/Predict.lean`) over the label rows read as binary numbers.
-/

namespace Verif.Trees.LC

open Verif.Trees Verif.Trees.HL

variable {O : Type}

/-- An entry of a label row: an integer, or a float of integer value (other floats print with a point as
well). -/
inductive Label where
  | int (k : Int)
  | float (k : Int)
  deriving DecidableEq

/-- `str(e)`. -/
def Label.str : Label → List Char
  | .int k => (toString k).toList
  | .float k => (toString k).toList ++ ['.', '0']

/-- The digits of `int(s, 2)`. -/
def digits : List Char → Nat → Except PyErr Nat
  | [], a => .ok a
  | c :: cs, a =>
    if c = '0' then digits cs (2 * a) else if c = '1' then digits cs (2 * a + 1) else .error .valueError

/-- `int(s, 2)` for a string without spaces, underscores and prefix. -/
def int2 : List Char → Except PyErr Int
  | [] => .error .valueError
  | '-' :: cs => if cs = [] then .error .valueError else (digits cs 0).map fun n : Nat => -(n : Int)
  | '+' :: cs => if cs = [] then .error .valueError else (digits cs 0).map fun n : Nat => (n : Int)
  | c :: cs => (digits (c :: cs) 0).map fun n : Nat => (n : Int)

/-- `transform_label`, lc_htc_nodes.py 5-7. -/
def transform (y : List Label) : Except PyErr Int := int2 (y.flatMap Label.str)

/-- One row given to `partial_fit`, with what the tree does about it. -/
structure Ev (O : Type) where
  x : List ℚ
  y : List Label
  w : ℚ
  growth : Bool
  choose : Leaf O → Choice O
  memory : List (Path × Bool)

/-- The row as the underlying tree sees it. -/
def Ev.code (e : Ev O) (c : Int) : HL.Ev O := ⟨e.x, c, e.w, e.growth, e.choose, e.memory⟩

/-- `_partial_fit` with the `learn_one` of lc_htc_nodes.py 22-24, 40-42, 59-61, 78-80.  The label is read at
the leaf: an instance that cannot be routed fails first. -/
def step (cfg : Cfg O) (root : Option (T O)) (e : Ev O) : Except PyErr (T O) :=
  match (root.getD (.leaf (newLeaf cfg true []))).filter e.x [] with
  | .error err => .error err
  | .ok _ =>
    match transform e.y with
    | .error err => .error err
    | .ok c => HL.step cfg root (e.code c)

/-- Rows in sequence. -/
def run (cfg : Cfg O) (root : Option (T O)) : List (Ev O) → Except PyErr (Option (T O))
  | [] => .ok root
  | e :: es =>
    match step cfg root e with
    | .error err => .error err
    | .ok r => run cfg (some r) es

/-- `"{0:0nb}".format(k)`, label_combination_hoeffding_tree.py 197. -/
def format (n k : Nat) : List Nat :=
  let d := if k = 0 then [0] else (Nat.digits 2 k).reverse
  List.replicate (n - d.length) 0 ++ d

/-- `predict`, lines 178-201. -/
def predict (cfg : Cfg O) (n : Nat) (root : Option (T O)) (rows : List (List ℚ)) : Except PyErr (List (List Nat)) :=
  (HL.predict cfg root none rows).map fun ks => ks.map (format n)

/-! ### Specification -/

/-- A row of `n` labels 0 and 1, as integers. -/
def IsRow (n : Nat) (y : List Label) (b : List Nat) : Prop := y = b.map (fun k : Nat => Label.int (k : Int)) ∧ b.length = n ∧ ∀ k ∈ b, k < 2

/-- The row is usable for training: a row of `n` binary labels. -/
def Ev.Binary (n : Nat) (e : Ev O) : Prop := ∃ b, IsRow n e.y b

/-! ### Proofs -/

/-- The value of binary digits, most significant first. -/
def value (b : List Nat) : Nat := Nat.ofDigits 2 b.reverse

theorem value_snoc (b : List Nat) (d : Nat) : value (b ++ [d]) = 2 * value b + d := by
  simp [value, Nat.ofDigits_cons]; ring

theorem digits_value (b c : List Nat) (hb : ∀ k ∈ b, k < 2) :
    digits (b.flatMap fun k : Nat => (Label.int (k : Int)).str) (value c) = .ok (value (c ++ b)) := by
  induction b generalizing c with
  | nil => simp [digits]
  | cons d b ih =>
    simp only [List.forall_mem_cons] at hb
    have h := ih (c ++ [d]) hb.2
    rw [List.append_assoc, List.singleton_append, value_snoc] at h
    rw [List.flatMap_cons]
    have hd : d = 0 ∨ d = 1 := by omega
    rcases hd with rfl | rfl
    · have : (Label.int ((0 : Nat) : Int)).str = ['0'] := by decide
      rw [this]
      simp only [List.cons_append, List.nil_append, digits, if_true]
      simpa using h
    · have : (Label.int ((1 : Nat) : Int)).str = ['1'] := by decide
      rw [this]
      simp only [List.cons_append, List.nil_append, digits, show ('1' : Char) ≠ '0' by decide, if_false, if_true]
      exact h

theorem transform_row (n : Nat) (hn : 0 < n) (y : List Label) (b : List Nat) (h : IsRow n y b) :
    transform y = .ok (value b : Int) := by
  obtain ⟨rfl, h1, h2⟩ := h
  have hd := digits_value b [] h2
  cases b with
  | nil => simp at h1; omega
  | cons d b =>
    simp only [value, List.reverse_nil, Nat.ofDigits_nil, List.nil_append] at hd
    unfold transform
    rw [List.flatMap_map]
    simp only [List.forall_mem_cons] at h2
    have hd' : d = 0 ∨ d = 1 := by omega
    rw [List.flatMap_cons] at hd ⊢
    rcases hd' with rfl | rfl
    · have : (Label.int ((0 : Nat) : Int)).str = ['0'] := by decide
      rw [this] at hd ⊢
      rw [List.singleton_append] at hd ⊢
      show (digits (_ :: _) 0).map _ = _
      rw [hd]
      rfl
    · have : (Label.int ((1 : Nat) : Int)).str = ['1'] := by decide
      rw [this] at hd ⊢
      rw [List.singleton_append] at hd ⊢
      show (digits (_ :: _) 0).map _ = _
      rw [hd]
      rfl

theorem format_value (n k : Nat) (hn : 0 < n) (hk : k < 2 ^ n) :
    (format n k).length = n ∧ (∀ d ∈ format n k, d < 2) ∧ value (format n k) = k := by
  have key : ∀ d : List Nat, d.length ≤ n → (∀ a ∈ d, a < 2) → Nat.ofDigits 2 d.reverse = k →
      (List.replicate (n - d.length) 0 ++ d).length = n ∧ (∀ a ∈ List.replicate (n - d.length) 0 ++ d, a < 2) ∧
        value (List.replicate (n - d.length) 0 ++ d) = k := by
    intro d h1 h2 h3
    refine ⟨by simp; omega, ?_, ?_⟩
    · intro a ha
      rcases List.mem_append.1 ha with ha | ha
      · rw [(List.mem_replicate.1 ha).2]; omega
      · exact h2 a ha
    · rw [value, List.reverse_append, Nat.ofDigits_append, h3, List.reverse_replicate, Nat.ofDigits_replicate_zero, mul_zero, add_zero]
  unfold format
  by_cases h0 : k = 0
  · subst h0
    simp only [if_true]
    exact key [0] (by simp; omega) (by simp) rfl
  · simp only [if_neg h0]
    refine key _ ?_ ?_ ?_
    · rw [List.length_reverse]
      exact (Nat.digits_length_le_iff (by omega) k).2 hk
    · intro a ha
      exact Nat.digits_lt_base (by omega) (List.mem_reverse.1 ha)
    · rw [List.reverse_reverse, Nat.ofDigits_digits]

theorem value_lt (b : List Nat) (hb : ∀ k ∈ b, k < 2) : value b < 2 ^ b.length := by
  have := Nat.ofDigits_lt_base_pow_length (b := 2) (l := b.reverse) (by omega) (fun k hk => hb k (List.mem_reverse.1 hk))
  simpa [value] using this

/-- C206: the number that stands for a row of labels in the tree is turned back into that row. -/
theorem C206_round_trip (n : Nat) (hn : 0 < n) (y : List Label) (b : List Nat) (h : IsRow n y b) :
    ∃ k : Nat, transform y = .ok (k : Int) ∧ format n k = b := by
  refine ⟨value b, transform_row n hn y b h, ?_⟩
  have hb : value b < 2 ^ n := by rw [← h.2.1]; exact value_lt b h.2.2
  obtain ⟨h1, h2, h3⟩ := format_value n (value b) hn hb
  have := Nat.ofDigits_inj_of_len_eq (b := 2) (by omega) (L1 := (format n (value b)).reverse) (L2 := b.reverse)
    (by rw [List.length_reverse, List.length_reverse, h1, h.2.1]) (fun k hk => h2 k (List.mem_reverse.1 hk))
    (fun k hk => h.2.2 k (List.mem_reverse.1 hk)) h3
  exact List.reverse_injective this

theorem digits_point (cs : List Char) (h : '.' ∈ cs) (a : Nat) : digits cs a = .error .valueError := by
  induction cs generalizing a with
  | nil => cases h
  | cons c cs ih =>
    rw [digits]
    by_cases h0 : c = '0'
    · rw [if_pos h0]
      refine ih ?_ _
      rcases List.mem_cons.1 h with rfl | h
      · cases h0
      · exact h
    · rw [if_neg h0]
      by_cases h1 : c = '1'
      · rw [if_pos h1]
        refine ih ?_ _
        rcases List.mem_cons.1 h with rfl | h
        · cases h1
        · exact h
      · rw [if_neg h1]

/-- C206: a row with a label of type float cannot be trained on. -/
theorem C206_float_violated (y : List Label) (k : Int) (h : .float k ∈ y) : transform y = .error .valueError := by
  have hp : '.' ∈ y.flatMap Label.str := by
    rw [List.mem_flatMap]
    exact ⟨_, h, by simp [Label.str]⟩
  unfold transform
  generalize y.flatMap Label.str = cs at hp
  unfold int2
  split
  · rfl
  · rename_i cs
    have : '.' ∈ cs := by simpa using hp
    rw [digits_point cs this]
    split <;> rfl
  · rename_i cs
    have : '.' ∈ cs := by simpa using hp
    rw [digits_point cs this]
    split <;> rfl
  · rw [digits_point _ hp]; rfl

/-- Training on rows of binary labels is training the Hoeffding tree on their numbers. -/
theorem run_codes (cfg : Cfg O) (m n : Nat) (hn : 0 < n) (es : List (Ev O)) (he : ∀ e ∈ es, (e.code 0).Ok m ∧ e.Binary n)
    (root root' : Option (T O)) (hroot : ∀ r, root = some r → r.WF m) (hr : run cfg root es = .ok root') :
    ∃ fs, List.Forall₂ (fun e f => ∃ b, IsRow n e.y b ∧ f = e.code (value b)) es fs ∧ HL.run cfg root fs = .ok root' := by
  induction es generalizing root with
  | nil => exact ⟨[], .nil, hr⟩
  | cons e es ih =>
    simp only [List.forall_mem_cons] at he
    obtain ⟨⟨h1, b, hb⟩, h2⟩ := he
    rw [run, step] at hr
    cases hf : (root.getD (.leaf (newLeaf cfg true []))).filter e.x [] with
    | error err => rw [hf] at hr; cases hr
    | ok p =>
      rw [hf, transform_row n hn e.y b hb] at hr
      simp only at hr
      obtain ⟨r1, g1, g2, -⟩ := step_weight cfg m root hroot (e.code (value b)) h1
      rw [g1] at hr
      obtain ⟨fs, k1, k2⟩ := ih h2 (some r1) (by rintro r ⟨⟩; exact g2) hr
      exact ⟨e.code (value b) :: fs, .cons ⟨b, hb, rfl⟩ k1, by rw [HL.run, g1]; exact k2⟩

theorem exists_of_forall₂ {α β : Type} {R : α → β → Prop} {l : List α} {l' : List β} (h : List.Forall₂ R l l') :
    ∀ b ∈ l', ∃ a ∈ l, R a b := by
  induction h with
  | nil => simp
  | cons h _ ih =>
    intro b hb
    rcases List.mem_cons.1 hb with rfl | hb
    · exact ⟨_, by simp, h⟩
    · obtain ⟨a, ha, hr⟩ := ih b hb
      exact ⟨a, by simp [ha], hr⟩

theorem format_row (n : Nat) (hn : 0 < n) (y : List Label) (b : List Nat) (h : IsRow n y b) : format n (value b) = b := by
  obtain ⟨k, h1, h2⟩ := C206_round_trip n hn y b h
  rw [transform_row n hn y b h] at h1
  have : value b = k := by simpa using h1
  rw [this]; exact h2

/-- C206: after training on rows of `n` binary labels, every prediction is a row of `n` labels that occurred in
training, or zeros if the leaf reached gives no vote. -/
theorem C206_seen_or_zeros_partial (cfg : Cfg O) (hp : cfg.Plain) (m n : Nat) (hn : 0 < n) (es : List (Ev O))
    (he : ∀ e ∈ es, (e.code 0).Ok m ∧ (e.code 0).Fair ∧ 0 ≤ e.w ∧ e.Binary n) (root : Option (T O))
    (hr : run cfg none es = .ok root) (x : List ℚ) (hx : x.length = m) :
    ∃ b v, predict cfg n root [x] = .ok [b] ∧ votesAt cfg root x = .ok v ∧
      ((∃ e ∈ es, IsRow n e.y b) ∨ b = List.replicate n 0 ∧ ∀ q ∈ v, q.2 = 0) := by
  obtain ⟨fs, h1, h2⟩ := run_codes cfg m n hn es (fun e h => ⟨(he e h).1, (he e h).2.2.2⟩) none root (by simp) hr
  obtain ⟨k, v, h3, h4, h5⟩ := C207_known_or_zero_partial cfg hp m fs (fun f hf => by
    obtain ⟨e, hm, b, hb, rfl⟩ := exists_of_forall₂ h1 f hf
    exact ⟨(he e hm).1, (he e hm).2.1, by simp [Ev.code], (he e hm).2.2.1⟩) root h2 x hx
  refine ⟨format n k, v, by rw [predict, h3]; rfl, h4, ?_⟩
  rcases h5 with ⟨f, hf, hk⟩ | ⟨rfl, hv⟩
  · left
    obtain ⟨e, hm, b, hb, rfl⟩ := exists_of_forall₂ h1 f hf
    have : value b = k := by simpa [Ev.code] using hk
    refine ⟨e, hm, ?_⟩
    rw [← this, format_row n hn e.y b hb]
    exact hb
  · right
    refine ⟨?_, hv⟩
    simp only [format, if_true, List.length_cons, List.length_nil]
    rw [show n = (n - (0 + 1)) + 1 by omega, List.replicate_succ', Nat.add_sub_cancel]

/-- C206: with majority-class leaves and splits without empty branches, every prediction of a trained tree is a
combination of labels that occurred in training. -/
theorem C206_majority_partial (cfg : Cfg O) (hk : cfg.kind = .mc) (m n : Nat) (hn : 0 < n) (es : List (Ev O)) (hes : es ≠ [])
    (he : ∀ e ∈ es, (e.code 0).Ok m ∧ (e.code 0).Fair ∧ (e.code 0).Filled ∧ 0 < e.w ∧ e.Binary n) (root : Option (T O))
    (hr : run cfg none es = .ok root) (x : List ℚ) (hx : x.length = m) :
    ∃ b, predict cfg n root [x] = .ok [b] ∧ ∃ e ∈ es, IsRow n e.y b := by
  obtain ⟨fs, h1, h2⟩ := run_codes cfg m n hn es (fun e h => ⟨(he e h).1, (he e h).2.2.2.2⟩) none root (by simp) hr
  have hfs : fs ≠ [] := by rintro rfl; cases h1; exact hes rfl
  obtain ⟨k, h3, f, hf, h5⟩ := C207_majority_partial cfg hk m fs hfs (fun f hf => by
    obtain ⟨e, hm, b, hb, rfl⟩ := exists_of_forall₂ h1 f hf
    exact ⟨(he e hm).1, (he e hm).2.1, (he e hm).2.2.1, by simp [Ev.code], (he e hm).2.2.2.1⟩) root h2 x hx
  obtain ⟨e, hm, b, hb, rfl⟩ := exists_of_forall₂ h1 f hf
  have : value b = k := by simpa [Ev.code] using h5
  refine ⟨format n k, by rw [predict, h3]; rfl, e, hm, ?_⟩
  rw [← this, format_row n hn e.y b hb]
  exact hb

/-- C206: an untrained tree predicts zeros, and so does a tree of adaptive leaves after a split, also if no
row of zeros has been seen. -/
theorem C206_unseen_violated :
    ((run (gCfg toyPdf .nba 2) none ([(1, [0, 1]), (3, [1, 0]), (0, [0, 1])].map fun p =>
        (⟨[p.1], p.2.map .int, 1, true, (knownEv 0 0).choose, []⟩ : Ev GObs))).toOption.bind fun r =>
      (predict (gCfg toyPdf .nba 2) 2 r [[1], [0]]).toOption) = some [[0, 0], [0, 1]] ∧
    (predict (gCfg toyPdf .nba 2) 2 none [[1]]).toOption = some [[0, 0]] := by
  decide +kernel

example : IsRow 3 [.int 1, .int 0, .int 1] [1, 0, 1] ∧ transform [.int 1, .int 0, .int 1] = .ok 5 ∧ format 3 5 = [1, 0, 1] :=
  ⟨⟨rfl, rfl, by decide⟩, rfl, by decide +kernel⟩

example : transform [.float 1, .float 0] = .error .valueError := C206_float_violated _ 1 (by simp)

end Verif.Trees.LC
