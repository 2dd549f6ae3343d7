import Verif.Common
import Mathlib.Data.List.TakeWhile
import Mathlib.Data.List.Infix
import Mathlib.Data.List.Basic

/-!
The default `reset()` of estimators, transforms and streams (`core/base.py` 344-356),
which prints the object and executes the text as a call of `self.__init__`; C243.

Modelled: `__repr__` (`core/base.py` 244-286, `utils/_pprint.py`) up to white space, the
removal of white space, the replacement of the class name, and the execution of the
resulting text for the literals below.  White space between tokens is left open: a
printed text is any text with the same other characters.
-/

namespace Verif.Core.Reset

/-- Character list of a literal. -/
local macro "cs!" s:str : term => do
  let cs := s.getString.toList.map fun c => Lean.Syntax.mkCharLit c
  `([$(cs.toArray),*])

/-- A parameter value: `None`, a truth value, a number (as it is printed), a string, a list or a
tuple (`true`), `Ellipsis`, or an object printed as `Name(...)` whose name is not defined
in `core/base.py`: another estimator, an array, a random state. -/
inductive Val where
  | none
  | bool (b : Bool)
  | num (t : List Char)
  | str (s : List Char)
  | seq (tuple : Bool) (vs : List Val)
  | ellipsis
  | obj (name inside : List Char)

/-- White space, as `str.split()` sees it (ASCII only). -/
def blank (c : Char) : Bool := c == ' ' || c == '\n' || c == '\t' || c == '\r'

/-- `''.join([line.strip() for line in text.split()])`, base.py 354. -/
def squash (t : List Char) : List Char := t.filter fun c => !blank c

/-- Letters, digits and underscore. -/
def idChar (c : Char) : Bool := c.isAlphanum || c == '_'

/-- First character of a printed number. -/
def numStart (c : Char) : Bool := c.isDigit || c == '-'

/-- Characters of printed numbers. -/
def numChar (c : Char) : Bool := c.isDigit || c == '.' || c == 'e' || c == '+' || c == '-'

/-- Opening bracket. -/
def opening (tuple : Bool) : Char := if tuple then '(' else '['

/-- Closing bracket. -/
def closing (tuple : Bool) : Char := if tuple then ')' else ']'

/-- The comma of a tuple with one element (pprint's `_pprint_tuple`). -/
def comma1 (tuple : Bool) (vs : List Val) : List Char := if tuple && vs.length == 1 then [','] else []

mutual
/-- The printed text of a value without the white space of the layout: `_safe_repr` (_pprint.py
336-436) and `_format_items` (266-308), by which only thirty elements of a sequence are
shown (a longer one never fits a line, so it is always printed by `_format_items`).
Strings are in single quotes; those with quotes or backslashes are excluded below. -/
def Val.text : Val → List Char
  | .none => cs!"None"
  | .bool true => cs!"True"
  | .bool false => cs!"False"
  | .num t => t
  | .str s => '\'' :: (s ++ ['\''])
  | .seq t vs => opening t :: (texts 30 vs ++ (comma1 t vs ++ [closing t]))
  | .ellipsis => cs!"Ellipsis"
  | .obj name inside => name ++ '(' :: (inside ++ [')'])
/-- Elements, of which `k` more are shown. -/
def texts : Nat → List Val → List Char
  | _, [] => []
  | 0, _ :: _ => cs!"..."
  | _ + 1, [v] => v.text
  | k + 1, v :: w :: vs => v.text ++ ',' :: texts k (w :: vs)
end

/-- Parameters as they are printed: `name=value`, separated by commas (_pprint.py 200-259). -/
def argText : List (List Char × Val) → List Char
  | [] => []
  | [(k, v)] => k ++ '=' :: v.text
  | (k, v) :: q :: ps => k ++ '=' :: (v.text ++ ',' :: argText (q :: ps))

/-- The parameters in brackets. -/
def brackets (ps : List (List Char × Val)) : List Char := '(' :: (argText ps ++ [')'])

/-- `text` is what `__repr__` may return for an object of class `cls` with parameters `ps`:
`cls(...)` with white space put in; at most thirty parameters and 700 visible characters
(otherwise `__repr__` leaves something out, base.py 262-284, _pprint.py 229-231). -/
def Printed (cls : List Char) (ps : List (List Char × Val)) (text : List Char) : Prop :=
  squash text = squash (cls ++ brackets ps) ∧ ps.length ≤ 30 ∧ (squash text).length ≤ 700

/-- `text.replace(pat, rep)`: occurrences from the left, without overlap; `n` bounds the length. -/
def replaceAll (pat rep : List Char) : Nat → List Char → List Char
  | 0, t => t
  | _ + 1, [] => []
  | n + 1, c :: t => if pat.isPrefixOf (c :: t) then rep ++ replaceAll pat rep n ((c :: t).drop pat.length) else c :: replaceAll pat rep n t

/-- Names with a value (`core/base.py` defines none of the names of the objects above). -/
def word (w : List Char) : Option Val :=
  if w = cs!"None" then some .none else if w = cs!"True" then some (.bool true) else if w = cs!"False" then some (.bool false)
  else if w = cs!"Ellipsis" then some .ellipsis else none

mutual
/-- Python's evaluation of a literal at the beginning of a text without white space; `other` stands for `SyntaxError`. -/
def parseVal : Nat → List Char → Except PyErr (Val × List Char)
  | 0, _ => .error .other
  | _ + 1, [] => .error .other
  | n + 1, c :: r =>
    if c = '\'' then
      match r.dropWhile (· ≠ '\'') with
      | [] => .error .other
      | _ :: r' => .ok (.str (r.takeWhile (· ≠ '\'')), r')
    else if c = '[' then
      match parseItems ']' n r with
      | .error e => .error e
      | .ok (vs, _, r') => .ok (.seq false vs, r')
    else if c = '(' then
      match parseItems ')' n r with
      | .error e => .error e
      | .ok ([v], false, r') => .ok (v, r')
      | .ok (vs, _, r') => .ok (.seq true vs, r')
    else if numStart c then .ok (.num ((c :: r).takeWhile numChar), (c :: r).dropWhile numChar)
    else if idChar c then
      match word ((c :: r).takeWhile idChar) with
      | some v => .ok (v, (c :: r).dropWhile idChar)
      | none => .error .nameError
    else if (cs!"...").isPrefixOf (c :: r) then .ok (.ellipsis, r.drop 2)
    else .error .other
/-- Elements up to the closing bracket, and whether there is a comma (or nothing) before it. -/
def parseItems (close : Char) : Nat → List Char → Except PyErr (List Val × Bool × List Char)
  | 0, _ => .error .other
  | _ + 1, [] => .error .other
  | n + 1, c :: r =>
    if c = close then .ok ([], true, r)
    else match parseVal n (c :: r) with
      | .error e => .error e
      | .ok (_, []) => .error .other
      | .ok (v, d :: r') =>
        if d = ',' then
          match parseItems close n r' with
          | .error e => .error e
          | .ok (vs, b, r'') => .ok (v :: vs, b, r'')
        else if d = close then .ok ([v], false, r')
        else .error .other
end

/-- Keyword arguments up to the closing bracket at the end of the text. -/
def parseArgs : Nat → List Char → Except PyErr (List (List Char × Val))
  | 0, _ => .error .other
  | n + 1, r =>
    if r = [')'] then .ok []
    else match r.dropWhile idChar with
      | '=' :: r' =>
        match parseVal n r' with
        | .error e => .error e
        | .ok (_, []) => .error .other
        | .ok (v, d :: r'') =>
          if d = ',' then
            match parseArgs n r'' with
            | .error e => .error e
            | .ok ps => .ok ((r.takeWhile idChar, v) :: ps)
          else if d = ')' ∧ r'' = [] then .ok [(r.takeWhile idChar, v)]
          else .error .other
      | _ => .error .other

/-- `reset()`, base.py 344-356: the arguments that `self.__init__` is called with. -/
def reset (cls text : List Char) : Except PyErr (List (List Char × Val)) :=
  let command := replaceAll cls (cs!"self.__init__") (squash text).length (squash text)
  if (cs!"self.__init__(").isPrefixOf command then parseArgs (command.length + 1) (command.drop 14)
  else .error .other

/-! ## Specification -/

/-- A printed number. -/
def IsNum (t : List Char) : Prop := ∃ c r, t = c :: r ∧ numStart c = true ∧ ∀ d ∈ t, numChar d = true

/-- An identifier. -/
def IsName (t : List Char) : Prop := t ≠ [] ∧ ∀ c ∈ t, idChar c = true

mutual
/-- A value made of `None`, truth values, numbers, strings without quotes and backslashes, lists and tuples. -/
def Val.Simple : Val → Prop
  | .num t => IsNum t
  | .str s => ∀ c ∈ s, c ≠ '\'' ∧ c ≠ '"' ∧ c ≠ '\\'
  | .seq _ vs => Simples vs
  | .obj _ _ => False
  | _ => True
/-- See `Val.Simple`. -/
def Simples : List Val → Prop
  | [] => True
  | v :: vs => v.Simple ∧ Simples vs
end

mutual
/-- No string contains white space and no sequence has more than thirty elements. -/
def Val.Tame : Val → Prop
  | .str s => ∀ c ∈ s, blank c = false
  | .seq _ vs => vs.length ≤ 30 ∧ Tames vs
  | _ => True
/-- See `Val.Tame`. -/
def Tames : List Val → Prop
  | [] => True
  | v :: vs => v.Tame ∧ Tames vs
end

mutual
/-- What becomes of a value: strings lose their white space, sequences all but thirty elements. -/
def Val.seen : Val → Val
  | .str s => .str (squash s)
  | .seq t vs => .seq t (seens 30 vs)
  | v => v
/-- See `Val.seen`. -/
def seens : Nat → List Val → List Val
  | _, [] => []
  | 0, _ :: _ => [.ellipsis]
  | k + 1, v :: vs => v.seen :: seens k vs
end

mutual
/-- The text of the value contains an object before anything else is wrong: executing it raises an exception. -/
def Val.Fails : Val → Prop
  | .obj name _ => IsName name ∧ (∀ c r, name = c :: r → numStart c = false) ∧ word name = none
  | .seq _ vs => FailsL 30 vs
  | _ => False
/-- One of the elements shown is such an object, those before it are simple. -/
def FailsL : Nat → List Val → Prop
  | k + 1, v :: vs => v.Fails ∨ (v.Simple ∧ FailsL k vs)
  | _, _ => False
end

/-! ## Lemmas -/

theorem squash_append (a b : List Char) : squash (a ++ b) = squash a ++ squash b := List.filter_append _ _

theorem squash_cons (c : Char) (t : List Char) (h : blank c = false) : squash (c :: t) = c :: squash t := by
  unfold squash; rw [List.filter_cons, h]; rfl

theorem squash_id (t : List Char) (h : ∀ c ∈ t, blank c = false) : squash t = t := by
  unfold squash
  rw [List.filter_eq_self]
  intro c hc
  rw [h c hc]; rfl

theorem blank_cases {c : Char} (h : blank c = true) : c = ' ' ∨ c = '\n' ∨ c = '\t' ∨ c = '\r' := by
  unfold blank at h
  simp only [Bool.or_eq_true, beq_iff_eq] at h
  tauto

theorem id_not_blank (c : Char) (h : idChar c = true) : blank c = false := by
  cases hb : blank c with
  | false => rfl
  | true =>
    rcases blank_cases hb with rfl | rfl | rfl | rfl <;> exact absurd h (by decide)

theorem num_not_blank (c : Char) (h : numChar c = true) : blank c = false := by
  cases hb : blank c with
  | false => rfl
  | true =>
    rcases blank_cases hb with rfl | rfl | rfl | rfl <;> exact absurd h (by decide)

theorem opening_not_blank (t : Bool) : blank (opening t) = false := by cases t <;> decide
theorem closing_not_blank (t : Bool) : blank (closing t) = false := by cases t <;> decide

/-- The text goes on with a comma or a closing bracket, or ends. -/
def Stop (rest : List Char) : Prop := rest = [] ∨ ∃ c r, rest = c :: r ∧ (c = ',' ∨ c = ']' ∨ c = ')')

theorem take_stop (p : Char → Bool) (hp : p ',' = false ∧ p ']' = false ∧ p ')' = false) (t rest : List Char) (ht : ∀ c ∈ t, p c = true)
    (hr : Stop rest) : (t ++ rest).takeWhile p = t ∧ (t ++ rest).dropWhile p = rest := by
  induction t with
  | nil =>
    rcases hr with rfl | ⟨c, r, rfl, hc⟩
    · exact ⟨rfl, rfl⟩
    · have : p c = false := by rcases hc with rfl | rfl | rfl; exacts [hp.1, hp.2.1, hp.2.2]
      simp [this]
  | cons c t ih =>
    obtain ⟨i1, i2⟩ := ih fun d hd => ht d (List.mem_cons_of_mem _ hd)
    have h1 := ht c List.mem_cons_self
    rw [List.cons_append, List.takeWhile_cons, List.dropWhile_cons, if_pos h1, if_pos h1, i1, i2]
    exact ⟨rfl, rfl⟩

theorem take_quote (s rest : List Char) (hs : ∀ c ∈ s, c ≠ '\'') :
    (s ++ '\'' :: rest).takeWhile (· ≠ '\'') = s ∧ (s ++ '\'' :: rest).dropWhile (· ≠ '\'') = '\'' :: rest := by
  induction s with
  | nil => simp
  | cons c s ih =>
    obtain ⟨i1, i2⟩ := ih fun d hd => hs d (List.mem_cons_of_mem _ hd)
    have h1 : decide (c ≠ '\'') = true := by simpa using hs c List.mem_cons_self
    rw [List.cons_append, List.takeWhile_cons, List.dropWhile_cons, if_pos h1, if_pos h1, i1, i2]
    exact ⟨rfl, rfl⟩

theorem num_facts (c : Char) (h : numStart c = true) : c ≠ '\'' ∧ c ≠ '[' ∧ c ≠ '(' ∧ c ≠ ']' ∧ c ≠ ')' := by
  refine ⟨?_, ?_, ?_, ?_, ?_⟩ <;> rintro rfl <;> revert h <;> decide

theorem id_facts (c : Char) (h : idChar c = true) : c ≠ '\'' ∧ c ≠ '[' ∧ c ≠ '(' ∧ c ≠ ']' ∧ c ≠ ')' := by
  refine ⟨?_, ?_, ?_, ?_, ?_⟩ <;> rintro rfl <;> revert h <;> decide

/-- Texts of values begin with no closing bracket. -/
theorem text_head (v : Val) (hv : v.Simple ∨ v.Fails) : ∃ c t, squash v.text = c :: t ∧ c ≠ ']' ∧ c ≠ ')' := by
  cases v with
  | none => exact ⟨'N', cs!"one", by rw [Val.text]; decide, by decide, by decide⟩
  | bool b => cases b with
    | true => exact ⟨'T', cs!"rue", by rw [Val.text]; decide, by decide, by decide⟩
    | false => exact ⟨'F', cs!"alse", by rw [Val.text]; decide, by decide, by decide⟩
  | num t =>
    rcases hv with hv | hv
    · obtain ⟨c, r, rfl, h1, h2⟩ := hv
      obtain ⟨_, _, _, f4, f5⟩ := num_facts c h1
      exact ⟨c, squash r, by rw [Val.text, squash_cons _ _ (num_not_blank _ (h2 c List.mem_cons_self))], f4, f5⟩
    · exact hv.elim
  | str s => exact ⟨'\'', squash (s ++ ['\'']), by rw [Val.text, squash_cons _ _ (by decide)], by decide, by decide⟩
  | seq t vs =>
    refine ⟨opening t, squash (texts 30 vs ++ (comma1 t vs ++ [closing t])), by rw [Val.text, squash_cons _ _ (opening_not_blank t)], ?_, ?_⟩ <;>
      cases t <;> decide
  | ellipsis => exact ⟨'E', cs!"llipsis", by rw [Val.text]; decide, by decide, by decide⟩
  | obj name inside =>
    rcases hv with hv | hv
    · exact hv.elim
    · obtain ⟨⟨h1, h2⟩, _, _⟩ := hv
      cases name with
      | nil => exact absurd rfl h1
      | cons c r =>
        have hc := h2 c List.mem_cons_self
        obtain ⟨_, _, _, f4, f5⟩ := id_facts c hc
        exact ⟨c, squash (r ++ '(' :: (inside ++ [')'])), by rw [Val.text, List.cons_append, squash_cons _ _ (id_not_blank _ hc)], f4, f5⟩

/-- A name with a value is read back. -/
theorem parse_word (n : Nat) (c : Char) (r rest : List Char) (v : Val) (hid : ∀ d ∈ c :: r, idChar d = true) (hn : numStart c = false)
    (hw : word (c :: r) = some v) (hr : Stop rest) : parseVal (n + 1) ((c :: r) ++ rest) = .ok (v, rest) := by
  obtain ⟨f1, f2, f3, _, _⟩ := id_facts c (hid c List.mem_cons_self)
  obtain ⟨t1, t2⟩ := take_stop idChar (by decide) (c :: r) rest hid hr
  rw [List.cons_append, parseVal, if_neg f1, if_neg f2, if_neg f3, if_neg (by rw [hn]; decide), if_pos (hid c List.mem_cons_self),
    ← List.cons_append, t1, t2, hw]

theorem items_nil_close (n : Nat) (close : Char) (rest : List Char) : parseItems close (n + 1) (close :: rest) = .ok ([], true, rest) := by
  rw [parseItems, if_pos rfl]

mutual
/-- The text of a simple value, without white space, is read back as the value without its white space and with thirty elements per sequence. -/
theorem parse_text (v : Val) (hs : v.Simple) (n : Nat) (rest : List Char) (hr : Stop rest) (hn : (squash v.text).length < n) :
    parseVal n (squash v.text ++ rest) = .ok (v.seen, rest) := by
  cases n with
  | zero => omega
  | succ n =>
  cases v with
  | none =>
    have e : Val.seen .none = .none := rfl
    rw [e, Val.text, squash_id _ (by decide)]
    exact parse_word n 'N' _ rest .none (by decide) (by decide) rfl hr
  | bool b =>
    have e : Val.seen (.bool b) = .bool b := by cases b <;> rfl
    rw [e]
    cases b with
    | true => rw [Val.text, squash_id _ (by decide)]; exact parse_word n 'T' _ rest _ (by decide) (by decide) rfl hr
    | false => rw [Val.text, squash_id _ (by decide)]; exact parse_word n 'F' _ rest _ (by decide) (by decide) rfl hr
  | num t =>
    obtain ⟨c, r, rfl, h1, h2⟩ := hs
    obtain ⟨f1, f2, f3, _, _⟩ := num_facts c h1
    have hb : squash (c :: r) = c :: r := squash_id _ fun d hd => num_not_blank _ (h2 d hd)
    obtain ⟨t1, t2⟩ := take_stop numChar (by decide) (c :: r) rest h2 hr
    have e : Val.seen (.num (c :: r)) = .num (c :: r) := rfl
    rw [e, Val.text, hb, List.cons_append, parseVal, if_neg f1, if_neg f2, if_neg f3, if_pos h1, ← List.cons_append, t1, t2]
  | str s =>
    have hs' : ∀ c ∈ squash s, c ≠ '\'' := fun c hc => (hs c (List.mem_filter.1 hc).1).1
    obtain ⟨t1, t2⟩ := take_quote (squash s) rest hs'
    have e : squash (Val.text (.str s)) ++ rest = '\'' :: (squash s ++ '\'' :: rest) := by
      rw [Val.text, squash_cons _ _ (by decide), squash_append, squash_id ['\''] (by decide)]
      simp
    rw [e, parseVal, if_pos rfl, t2, t1]
    rfl
  | seq t vs =>
    have e : squash (Val.text (.seq t vs)) ++ rest = opening t :: (squash (texts 30 vs) ++ (comma1 t vs ++ closing t :: rest)) := by
      have hcm : squash (comma1 t vs ++ [closing t]) = comma1 t vs ++ [closing t] := by
        apply squash_id
        intro c hc
        rw [List.mem_append, List.mem_singleton] at hc
        rcases hc with hc | rfl
        · unfold comma1 at hc
          by_cases hh : (t && vs.length == 1) = true
          · rw [if_pos hh, List.mem_singleton] at hc; subst hc; decide
          · rw [if_neg hh] at hc; cases hc
        · exact closing_not_blank t
      rw [Val.text, squash_cons _ _ (opening_not_blank t), squash_append, hcm]
      simp
    have hlen : (squash (texts 30 vs)).length + 1 < n := by
      have := congrArg List.length e
      simp only [List.length_append, List.length_cons] at this
      omega
    rw [e]
    have hseen : Val.seen (.seq t vs) = .seq t (seens 30 vs) := rfl
    rw [hseen]
    cases vs with
    | nil =>
      cases n with
      | zero => omega
      | succ n =>
        have e2 : squash (texts 30 []) = [] := rfl
        have e3 : seens 30 [] = [] := rfl
        rw [e2, e3]
        cases t with
        | false =>
          change parseVal (n + 1 + 1) ('[' :: ']' :: rest) = _
          rw [parseVal, if_neg (by decide), if_pos rfl, items_nil_close]
        | true =>
          change parseVal (n + 1 + 1) ('(' :: ')' :: rest) = _
          rw [parseVal, if_neg (by decide), if_neg (by decide), if_pos rfl, items_nil_close]
    | cons v vs =>
      cases t with
      | false =>
        have hc : comma1 false (v :: vs) = [] := rfl
        have := parse_texts (v :: vs) hs (by simp) 30 ']' (.inl rfl) n rest hlen
        rw [hc, List.nil_append]
        change parseVal (n + 1) ('[' :: (squash (texts 30 (v :: vs)) ++ ']' :: rest)) = _
        rw [parseVal, if_neg (by decide), if_pos rfl, this]
      | true =>
        cases vs with
        | nil =>
          have hc : comma1 true [v] = [','] := rfl
          have e4 : texts 30 [v] = v.text := by rw [texts]
          have e5 : seens 30 [v] = [v.seen] := rfl
          rw [hc, e4, e5]
          rw [e4] at hlen
          change parseVal (n + 1) ('(' :: (squash v.text ++ ',' :: ')' :: rest)) = _
          obtain ⟨c, tl, h1, h2, h3⟩ := text_head v (.inl hs.1)
          cases n with
          | zero => omega
          | succ n =>
            have := parse_text v hs.1 n (',' :: ')' :: rest) (.inr ⟨_, _, rfl, .inl rfl⟩) (by omega)
            rw [h1] at this hlen ⊢
            cases n with
            | zero => simp at hlen
            | succ n =>
            rw [parseVal, if_neg (by decide), if_neg (by decide), if_pos rfl, List.cons_append, parseItems, if_neg h3, ← List.cons_append, this]
            simp only [if_pos]
            rw [items_nil_close]
        | cons w vs =>
          have hc : comma1 true (v :: w :: vs) = [] := rfl
          have := parse_texts (v :: w :: vs) hs (by simp) 30 ')' (.inr rfl) n rest hlen
          have e5 : seens 30 (v :: w :: vs) = v.seen :: w.seen :: seens 28 vs := rfl
          rw [hc, List.nil_append]
          change parseVal (n + 1) ('(' :: (squash (texts 30 (v :: w :: vs)) ++ ')' :: rest)) = _
          rw [parseVal, if_neg (by decide), if_neg (by decide), if_pos rfl, this, e5]
  | ellipsis =>
    have e : Val.seen .ellipsis = .ellipsis := rfl
    rw [e, Val.text, squash_id _ (by decide)]
    exact parse_word n 'E' _ rest .ellipsis (by decide) (by decide) rfl hr
  | obj name inside => exact hs.elim

/-- The same for the elements of a sequence. -/
theorem parse_texts (vs : List Val) (hs : Simples vs) (hne : vs ≠ []) (k : Nat) (close : Char) (hclose : close = ']' ∨ close = ')') (n : Nat)
    (rest : List Char) (hn : (squash (texts k vs)).length + 1 < n) :
    parseItems close n (squash (texts k vs) ++ close :: rest) = .ok (seens k vs, false, rest) := by
  have hcomma : close ≠ ',' := by rcases hclose with rfl | rfl <;> decide
  have hstop : Stop (close :: rest) := .inr ⟨close, rest, rfl, by rcases hclose with rfl | rfl <;> simp⟩
  cases n with
  | zero => omega
  | succ n =>
  cases vs with
  | nil => exact absurd rfl hne
  | cons v vs =>
    cases k with
    | zero =>
      have e1 : squash (texts 0 (v :: vs)) = cs!"..." := by rw [texts]; decide
      have e2 : seens 0 (v :: vs) = [.ellipsis] := rfl
      rw [e1] at hn
      rw [e1, e2]
      cases n with
      | zero => simp at hn
      | succ n =>
        have e3 : parseVal (n + 1) ('.' :: '.' :: '.' :: close :: rest) = .ok (.ellipsis, close :: rest) := by
          rw [parseVal, if_neg (by decide), if_neg (by decide), if_neg (by decide), if_neg (by decide), if_neg (by decide), if_pos (by rfl)]
          rfl
        change parseItems close (n + 1 + 1) ('.' :: '.' :: '.' :: close :: rest) = _
        rw [parseItems, if_neg (by rcases hclose with rfl | rfl <;> decide), e3]
        simp only [if_neg hcomma, if_pos]
    | succ k =>
      obtain ⟨c, tl, h1, h2, h3⟩ := text_head v (.inl hs.1)
      have hcc : c ≠ close := by rcases hclose with rfl | rfl; exacts [h2, h3]
      cases vs with
      | nil =>
        have e1 : texts (k + 1) [v] = v.text := by rw [texts]
        have e2 : seens (k + 1) [v] = [v.seen] := by rw [seens, seens]
        rw [e1] at hn
        have := parse_text v hs.1 n (close :: rest) hstop (by omega)
        rw [e1, e2]
        rw [h1] at this ⊢
        rw [List.cons_append, parseItems, if_neg hcc, ← List.cons_append, this]
        simp only [if_neg hcomma, if_pos]
      | cons w vs =>
        have e1 : squash (texts (k + 1) (v :: w :: vs)) = squash v.text ++ ',' :: squash (texts k (w :: vs)) := by
          rw [texts, squash_append, squash_cons _ _ (by decide)]
        have e2 : seens (k + 1) (v :: w :: vs) = v.seen :: seens k (w :: vs) := by rw [seens]
        rw [e1] at hn
        simp only [List.length_append, List.length_cons] at hn
        have p1 := parse_text v hs.1 n (',' :: (squash (texts k (w :: vs)) ++ close :: rest)) (.inr ⟨_, _, rfl, .inl rfl⟩) (by omega)
        have p2 := parse_texts (w :: vs) hs.2 (by simp) k close hclose n rest (by omega)
        rw [e1, e2, List.append_assoc, List.cons_append]
        rw [h1] at p1 ⊢
        rw [List.cons_append, parseItems, if_neg hcc, ← List.cons_append, p1]
        simp only [if_pos]
        rw [p2]
end

/-- Executing a name without a value raises an exception. -/
theorem parse_name (n : Nat) (name inside rest : List Char) (h : (Val.obj name inside).Fails) :
    ∃ e, parseVal n (squash (Val.text (.obj name inside)) ++ rest) = .error e := by
  cases n with
  | zero => exact ⟨.other, by rw [parseVal]⟩
  | succ n =>
    obtain ⟨⟨h1, h2⟩, h3, h4⟩ := h
    cases name with
    | nil => exact absurd rfl h1
    | cons c r =>
      obtain ⟨f1, f2, f3, _, _⟩ := id_facts c (h2 c List.mem_cons_self)
      have e : squash (Val.text (.obj (c :: r) inside)) ++ rest = (c :: r) ++ '(' :: (squash (inside ++ [')']) ++ rest) := by
        rw [Val.text, squash_append, squash_id (c :: r) fun d hd => id_not_blank _ (h2 d hd), squash_cons _ _ (by decide)]
        simp
      have t1 : ∀ (t : List Char), (∀ d ∈ t, idChar d = true) → ∀ x : List Char, (t ++ '(' :: x).takeWhile idChar = t := by
        intro t ht x
        induction t with
        | nil => rw [List.nil_append, List.takeWhile_cons, if_neg (by decide)]
        | cons d t ih =>
          rw [List.cons_append, List.takeWhile_cons, if_pos (ht d List.mem_cons_self), ih fun d hd => ht d (List.mem_cons_of_mem _ hd)]
      refine ⟨.nameError, ?_⟩
      rw [e, List.cons_append, parseVal, if_neg f1, if_neg f2, if_neg f3, if_neg (by rw [h3 c r rfl]; decide),
        if_pos (h2 c List.mem_cons_self), ← List.cons_append, t1 _ h2, h4]

mutual
/-- Executing a value with an object in it raises an exception. -/
theorem parse_fails (v : Val) (hf : v.Fails) (n : Nat) (rest : List Char) (hn : (squash v.text).length < n) :
    ∃ e, parseVal n (squash v.text ++ rest) = .error e := by
  cases v with
  | obj name inside => exact parse_name n name inside rest hf
  | seq t vs =>
    cases n with
    | zero => exact ⟨.other, by rw [parseVal]⟩
    | succ n =>
      have e : squash (Val.text (.seq t vs)) ++ rest = opening t :: (squash (texts 30 vs) ++ (squash (comma1 t vs ++ [closing t]) ++ rest)) := by
        rw [Val.text, squash_cons _ _ (opening_not_blank t), squash_append]
        simp
      rw [e]
      obtain ⟨er, her⟩ := items_fail vs 30 hf (closing t) (by cases t <;> simp [closing]) n (squash (comma1 t vs ++ [closing t]) ++ rest) (by
        have := congrArg List.length e
        have h2 : 0 < (squash (comma1 t vs ++ [closing t])).length := by
          rw [squash_append, squash_id [closing t] (by intro c hc; rw [List.mem_singleton] at hc; subst hc; exact closing_not_blank t)]
          simp
        simp only [List.length_append, List.length_cons] at this h2
        omega)
      refine ⟨er, ?_⟩
      cases t with
      | false =>
        change parseVal (n + 1) ('[' :: _) = _
        change parseItems ']' _ _ = _ at her
        rw [parseVal, if_neg (by decide), if_pos rfl, her]
      | true =>
        change parseVal (n + 1) ('(' :: _) = _
        change parseItems ')' _ _ = _ at her
        rw [parseVal, if_neg (by decide), if_neg (by decide), if_pos rfl, her]
  | none => exact hf.elim
  | bool b => exact hf.elim
  | num t => exact hf.elim
  | str s => exact hf.elim
  | ellipsis => exact hf.elim

/-- The same for elements. -/
theorem items_fail (vs : List Val) (k : Nat) (hf : FailsL k vs) (close : Char) (hclose : close = ']' ∨ close = ')') (n : Nat) (rest : List Char)
    (hn : (squash (texts k vs)).length + 1 < n) : ∃ e, parseItems close n (squash (texts k vs) ++ rest) = .error e := by
  cases k with
  | zero => cases vs <;> exact hf.elim
  | succ k =>
  cases vs with
  | nil => exact hf.elim
  | cons v vs =>
  cases n with
  | zero => exact ⟨.other, by rw [parseItems]⟩
  | succ n =>
    have hv : v.Simple ∨ v.Fails := by rcases hf with h | h; exacts [.inr h, .inl h.1]
    obtain ⟨c, tl, h1, h2, h3⟩ := text_head v hv
    have hcc : c ≠ close := by rcases hclose with rfl | rfl; exacts [h2, h3]
    have e1 : ∃ x, squash (texts (k + 1) (v :: vs)) = squash v.text ++ x ∧ (vs ≠ [] → x = ',' :: squash (texts k vs)) := by
      cases vs with
      | nil => exact ⟨[], by rw [texts, List.append_nil], fun h => absurd rfl h⟩
      | cons w vs => exact ⟨_, by rw [texts, squash_append, squash_cons _ _ (by decide)], fun _ => rfl⟩
    obtain ⟨x, hx, hx2⟩ := e1
    rw [hx, List.length_append] at hn
    rw [hx, List.append_assoc]
    have hpos : 0 < (squash v.text).length := by rw [h1]; simp
    rcases hf with hf | ⟨hs, hf⟩
    · obtain ⟨er, her⟩ := parse_fails v hf n (x ++ rest) (by omega)
      refine ⟨er, ?_⟩
      rw [h1] at her ⊢
      rw [List.cons_append, parseItems, if_neg hcc, ← List.cons_append, her]
    · have hne : vs ≠ [] := by rintro rfl; cases k <;> exact hf.elim
      have hx2 := hx2 hne
      subst hx2
      simp only [List.length_cons] at hn
      obtain ⟨er, her⟩ := items_fail vs k hf close hclose n rest (by omega)
      have p := parse_text v hs n (',' :: (squash (texts k vs) ++ rest)) (.inr ⟨_, _, rfl, .inl rfl⟩) (by omega)
      refine ⟨er, ?_⟩
      rw [List.cons_append]
      rw [h1] at p ⊢
      rw [List.cons_append, parseItems, if_neg hcc, ← List.cons_append, p]
      simp only [if_pos]
      rw [her]
end

/-! Arguments. -/

/-- Parameter names are identifiers. -/
def Named (ps : List (List Char × Val)) : Prop := ∀ p ∈ ps, IsName p.1

theorem take_key (k x : List Char) (hk : ∀ c ∈ k, idChar c = true) : (k ++ '=' :: x).takeWhile idChar = k ∧ (k ++ '=' :: x).dropWhile idChar = '=' :: x := by
  induction k with
  | nil => rw [List.nil_append, List.takeWhile_cons, List.dropWhile_cons, if_neg (by decide), if_neg (by decide)]; exact ⟨rfl, rfl⟩
  | cons d t ih =>
    obtain ⟨i1, i2⟩ := ih fun d hd => hk d (List.mem_cons_of_mem _ hd)
    have h := hk d List.mem_cons_self
    rw [List.cons_append, List.takeWhile_cons, List.dropWhile_cons, if_pos h, if_pos h, i1, i2]
    exact ⟨rfl, rfl⟩

theorem argText_cons (k : List Char) (v : Val) (ps : List (List Char × Val)) (hk : IsName k) :
    ∃ x, squash (argText ((k, v) :: ps)) = k ++ '=' :: (squash v.text ++ x) ∧ (ps = [] → x = []) ∧ (ps ≠ [] → x = ',' :: squash (argText ps)) := by
  have hk' : squash k = k := squash_id _ fun c hc => id_not_blank _ (hk.2 c hc)
  cases ps with
  | nil => exact ⟨[], by rw [argText, squash_append, squash_cons _ _ (by decide), hk', List.append_nil], fun _ => rfl, fun h => absurd rfl h⟩
  | cons q ps =>
    exact ⟨_, by rw [argText, squash_append, squash_cons _ _ (by decide), hk', squash_append, squash_cons _ _ (by decide)], (fun h => by cases h), fun _ => rfl⟩

theorem key_ne (k x : List Char) (hk : IsName k) (y : List Char) : k ++ x ++ y ≠ [')'] := by
  obtain ⟨h1, h2⟩ := hk
  cases k with
  | nil => exact absurd rfl h1
  | cons c k =>
    intro e
    rw [List.cons_append, List.cons_append, List.cons.injEq] at e
    exact (id_facts c (h2 c List.mem_cons_self)).2.2.2.2 e.1

theorem parse_args (ps : List (List Char × Val)) (hk : Named ps) (hs : ∀ p ∈ ps, p.2.Simple) (n : Nat)
    (hn : (squash (argText ps)).length + 1 < n) :
    parseArgs n (squash (argText ps) ++ [')']) = .ok (ps.map fun p => (p.1, p.2.seen)) := by
  induction ps generalizing n with
  | nil =>
    cases n with
    | zero => omega
    | succ n => rw [parseArgs, if_pos (by rfl)]; rfl
  | cons p ps ih =>
    obtain ⟨k, v⟩ := p
    have hkk := hk (k, v) List.mem_cons_self
    obtain ⟨x, hx, hx0, hx1⟩ := argText_cons k v ps hkk
    cases n with
    | zero => omega
    | succ n =>
      rw [hx] at hn ⊢
      simp only [List.length_append, List.length_cons] at hn
      obtain ⟨t1, t2⟩ := take_key k (squash v.text ++ x ++ [')']) hkk.2
      have hlen : 0 < k.length := List.length_pos_of_ne_nil hkk.1
      rw [parseArgs, if_neg (key_ne _ _ hkk _), List.append_assoc, List.cons_append, t1, t2]
      simp only []
      by_cases hps : ps = []
      · subst hps
        rw [hx0 rfl, List.append_nil, parse_text v (hs _ List.mem_cons_self) n [')'] (.inr ⟨_, _, rfl, .inr (.inr rfl)⟩) (by omega)]
        rfl
      · have hx1 := hx1 hps
        subst hx1
        simp only [List.length_cons] at hn
        rw [List.append_assoc, List.cons_append, parse_text v (hs _ List.mem_cons_self) n _ (.inr ⟨_, _, rfl, .inl rfl⟩) (by omega)]
        simp only [if_pos]
        rw [ih (fun p hp => hk p (List.mem_cons_of_mem _ hp)) (fun p hp => hs p (List.mem_cons_of_mem _ hp)) n (by omega)]
        rfl

theorem args_fail (before : List (List Char × Val)) (p : List Char × Val) (after : List (List Char × Val)) (hk : Named (before ++ p :: after))
    (hs : ∀ q ∈ before, q.2.Simple) (hf : p.2.Fails) (n : Nat) (hn : (squash (argText (before ++ p :: after))).length + 1 < n) :
    ∃ e, parseArgs n (squash (argText (before ++ p :: after)) ++ [')']) = .error e := by
  induction before generalizing n with
  | nil =>
    obtain ⟨k, v⟩ := p
    rw [List.nil_append] at hn hk ⊢
    have hkk := hk (k, v) List.mem_cons_self
    obtain ⟨x, hx, _, _⟩ := argText_cons k v after hkk
    cases n with
    | zero => omega
    | succ n =>
      rw [hx] at hn ⊢
      simp only [List.length_append, List.length_cons] at hn
      obtain ⟨t1, t2⟩ := take_key k (squash v.text ++ x ++ [')']) hkk.2
      have hlen : 0 < k.length := List.length_pos_of_ne_nil hkk.1
      obtain ⟨e, he⟩ := parse_fails v hf n (x ++ [')']) (by omega)
      refine ⟨e, ?_⟩
      rw [parseArgs, if_neg (key_ne _ _ hkk _), List.append_assoc, List.cons_append, t2]
      simp only []
      rw [List.append_assoc, he]
  | cons q before ih =>
    obtain ⟨k, v⟩ := q
    rw [List.cons_append] at hn hk ⊢
    have hkk := hk (k, v) List.mem_cons_self
    obtain ⟨x, hx, _, hx1⟩ := argText_cons k v (before ++ p :: after) hkk
    have hx1 := hx1 (by simp)
    subst hx1
    cases n with
    | zero => omega
    | succ n =>
      rw [hx] at hn ⊢
      simp only [List.length_append, List.length_cons] at hn
      obtain ⟨t1, t2⟩ := take_key k (squash v.text ++ ',' :: squash (argText (before ++ p :: after)) ++ [')']) hkk.2
      obtain ⟨e, he⟩ := ih (fun p hp => hk p (List.mem_cons_of_mem _ hp)) (fun p hp => hs p (List.mem_cons_of_mem _ hp)) n (by omega)
      refine ⟨e, ?_⟩
      rw [parseArgs, if_neg (key_ne _ _ hkk _), List.append_assoc, List.cons_append, t2]
      simp only []
      rw [List.append_assoc, List.cons_append, parse_text v (hs _ List.mem_cons_self) n _ (.inr ⟨_, _, rfl, .inl rfl⟩) (by omega)]
      simp only [if_pos]
      rw [he]

/-! The class name. -/

theorem replace_none (pat rep : List Char) (n : Nat) (t : List Char) (h : ¬ pat <:+: t) : replaceAll pat rep n t = t := by
  induction n generalizing t with
  | zero => rw [replaceAll]
  | succ n ih =>
    cases t with
    | nil => rw [replaceAll]
    | cons c t =>
      rw [replaceAll, if_neg, ih t fun hc => h (hc.trans (List.suffix_cons c t).isInfix)]
      intro hp
      exact h (List.isPrefixOf_iff_prefix.1 hp).isInfix

theorem command_eq (cls : List Char) (hc : IsName cls) (ps : List (List Char × Val)) (text : List Char) (hp : Printed cls ps text)
    (hn : ¬ cls <:+: squash (brackets ps)) :
    replaceAll cls (cs!"self.__init__") (squash text).length (squash text) = cs!"self.__init__(" ++ (squash (argText ps) ++ [')']) := by
  have e1 : squash text = cls ++ squash (brackets ps) := by
    rw [hp.1, squash_append, squash_id cls fun c hcc => id_not_blank _ (hc.2 c hcc)]
  have e2 : squash (brackets ps) = '(' :: (squash (argText ps) ++ [')']) := by
    unfold brackets
    rw [squash_cons _ _ (by decide), squash_append, squash_id [')'] (by decide)]
  rw [e1]
  cases cls with
  | nil => exact absurd rfl hc.1
  | cons c cls =>
    rw [List.cons_append, List.length_cons, replaceAll, if_pos, ← List.cons_append, List.drop_left' rfl, replace_none _ _ _ _ hn, e2]
    · rfl
    · rw [← List.cons_append]
      exact List.isPrefixOf_iff_prefix.2 (List.prefix_append _ _)

/-! ## Properties -/

/-- What `reset()` passes to `__init__`, for simple values. -/
theorem reset_eq (cls : List Char) (hc : IsName cls) (ps : List (List Char × Val)) (hk : Named ps) (hs : ∀ p ∈ ps, p.2.Simple) (text : List Char)
    (hp : Printed cls ps text) (hn : ¬ cls <:+: squash (brackets ps)) : reset cls text = .ok (ps.map fun p => (p.1, p.2.seen)) := by
  unfold reset
  simp only []
  rw [command_eq cls hc ps text hp hn, if_pos (List.isPrefixOf_iff_prefix.2 (List.prefix_append _ _)), List.drop_left' (by rfl)]
  exact parse_args ps hk hs _ (by simp only [List.length_append, List.length_cons, List.length_nil]; omega)

mutual
theorem seen_eq (v : Val) (h : v.Tame) : v.seen = v := by
  cases v with
  | str s =>
    have : squash s = s := squash_id s h
    rw [Val.seen, this]
  | seq t vs =>
    rw [Val.seen, seens_eq vs 30 h.1 h.2]
  | none => rfl
  | bool b => rfl
  | num t => rfl
  | ellipsis => rfl
  | obj a b => rfl
theorem seens_eq (vs : List Val) (k : Nat) (hl : vs.length ≤ k) (h : Tames vs) : seens k vs = vs := by
  cases vs with
  | nil => cases k <;> rfl
  | cons v vs =>
    cases k with
    | zero => simp at hl
    | succ k =>
      rw [seens, seen_eq v h.1, seens_eq vs k (by simpa using hl) h.2]
end

theorem seens_long (vs : List Val) (k : Nat) (hl : k < vs.length) : seens k vs = (vs.take k).map Val.seen ++ [.ellipsis] := by
  induction vs generalizing k with
  | nil => simp at hl
  | cons v vs ih =>
    cases k with
    | zero => rfl
    | succ k => rw [seens, ih k (by simpa using hl)]; rfl

/-- **C243, partial**: with parameters that are `None`, truth values, numbers, strings without white space, and lists and tuples of those with at
most thirty elements, `reset()` calls `__init__` with exactly the present parameters, provided that the class name does not occur in them. -/
theorem C243_reset_partial (cls : List Char) (hc : IsName cls) (ps : List (List Char × Val)) (hk : Named ps) (hs : ∀ p ∈ ps, p.2.Simple)
    (ht : ∀ p ∈ ps, p.2.Tame) (text : List Char) (hp : Printed cls ps text) (hn : ¬ cls <:+: squash (brackets ps)) :
    reset cls text = .ok ps := by
  rw [reset_eq cls hc ps hk hs text hp hn]
  congr 1
  conv_rhs => rw [← List.map_id ps]
  apply List.map_congr_left
  intro p hpm
  rw [seen_eq p.2 (ht p hpm)]
  rfl

/-- **C243, violated**: if a parameter is an object such as another estimator, an array or a random state, or a sequence with one among its first
thirty elements, then `reset()` raises an exception. -/
theorem C243_object_violated (cls : List Char) (hc : IsName cls) (before after : List (List Char × Val)) (p : List Char × Val)
    (hk : Named (before ++ p :: after)) (hs : ∀ q ∈ before, q.2.Simple) (hf : p.2.Fails) (text : List Char)
    (hp : Printed cls (before ++ p :: after) text) (hn : ¬ cls <:+: squash (brackets (before ++ p :: after))) :
    ∃ e, reset cls text = .error e := by
  unfold reset
  simp only []
  rw [command_eq cls hc _ text hp hn, if_pos (List.isPrefixOf_iff_prefix.2 (List.prefix_append _ _)), List.drop_left' (by rfl)]
  exact args_fail before p after hk hs hf _ (by simp only [List.length_append, List.length_cons, List.length_nil]; omega)

/-- **C243, violated**: `reset()` silently shortens a list or tuple with more than thirty elements, such as the list of nominal attributes of
naive Bayes, to thirty elements followed by `Ellipsis`. -/
theorem C243_long_list_violated (cls : List Char) (hc : IsName cls) (ps : List (List Char × Val)) (hk : Named ps) (hs : ∀ p ∈ ps, p.2.Simple)
    (text : List Char) (hp : Printed cls ps text) (hn : ¬ cls <:+: squash (brackets ps)) (k : List Char) (t : Bool) (vs : List Val)
    (hv : (k, .seq t vs) ∈ ps) (hl : 30 < vs.length) (ht : Tames vs) :
    ∃ args, reset cls text = .ok args ∧ args.map Prod.fst = ps.map Prod.fst ∧ (k, .seq t (vs.take 30 ++ [.ellipsis])) ∈ args := by
  refine ⟨_, reset_eq cls hc ps hk hs text hp hn, by simp, ?_⟩
  have e : (vs.take 30).map Val.seen = vs.take 30 := by
    conv_rhs => rw [← List.map_id (vs.take 30)]
    apply List.map_congr_left
    intro v hm
    have key : ∀ l : List Val, Tames l → ∀ v ∈ l, v.Tame := by
      intro l
      induction l with
      | nil => intro _ v hv; cases hv
      | cons a l ih =>
        intro h v hv
        rcases List.mem_cons.1 hv with rfl | hv
        · exact h.1
        · exact ih h.2 v hv
    exact seen_eq v (key vs ht v (List.mem_of_mem_take hm))
  have := List.mem_map_of_mem (f := fun p : List Char × Val => (p.1, p.2.seen)) hv
  simp only [Val.seen] at this
  rw [seens_long vs 30 hl, e] at this
  exact this

/-- **C243, violated**: `reset()` removes the white space in strings, for instance in the path of a `FileStream`. -/
theorem C243_blank_violated (cls : List Char) (hc : IsName cls) (ps : List (List Char × Val)) (hk : Named ps) (hs : ∀ p ∈ ps, p.2.Simple)
    (text : List Char) (hp : Printed cls ps text) (hn : ¬ cls <:+: squash (brackets ps)) (k s : List Char) (hv : (k, .str s) ∈ ps)
    (hb : ∃ c ∈ s, blank c = true) :
    ∃ args s', reset cls text = .ok args ∧ (k, .str s') ∈ args ∧ s' = s.filter (fun c => !blank c) ∧ s' ≠ s := by
  refine ⟨_, squash s, reset_eq cls hc ps hk hs text hp hn, ?_, rfl, ?_⟩
  · exact List.mem_map_of_mem (f := fun p : List Char × Val => (p.1, p.2.seen)) hv
  · intro e
    obtain ⟨c, h1, h2⟩ := hb
    rw [← e] at h1
    have := (List.mem_filter.1 h1).2
    rw [h2] at this
    cases this

/-- The printed arguments. -/
def shown (r : Except PyErr (List (List Char × Val))) : Option (List (List Char × List Char)) := r.toOption.map fun ps => ps.map fun p => (p.1, p.2.text)

/-- **C243, violated**: the class name is replaced inside strings too. -/
theorem C243_class_name_violated :
    shown (reset (cs!"FileStream") (cs!"FileStream(filepath='FileStream.csv')")) = some [(cs!"filepath", cs!"'self.__init__.csv'")] := by
  decide +kernel

/-- Parameters of a SAM-kNN classifier, some of them. -/
def samples : List (List Char × Val) := [(cs!"n_neighbors", .num (cs!"5")), (cs!"use_ltm", .bool true), (cs!"weighting", .str (cs!"distance"))]

example : IsName (cs!"SAMKNNClassifier") ∧ Named samples ∧ (∀ p ∈ samples, p.2.Simple) ∧ (∀ p ∈ samples, p.2.Tame) ∧
    Printed (cs!"SAMKNNClassifier") samples (cs!"SAMKNNClassifier(n_neighbors=5, use_ltm=True,\n weighting='distance')") ∧
    ¬ cs!"SAMKNNClassifier" <:+: squash (brackets samples) := by
  refine ⟨⟨by decide, by decide⟩, ?_, ?_, ?_, ⟨by decide +kernel, by decide, by decide⟩, by decide +kernel⟩
  · unfold samples Named IsName; decide
  · intro p hp
    simp only [samples, List.mem_cons, List.not_mem_nil, or_false] at hp
    rcases hp with rfl | rfl | rfl
    · exact ⟨'5', [], rfl, by decide, by decide⟩
    · trivial
    · change ∀ c ∈ cs!"distance", _; decide
  · intro p hp
    simp only [samples, List.mem_cons, List.not_mem_nil, or_false] at hp
    rcases hp with rfl | rfl | rfl
    · trivial
    · trivial
    · change ∀ c ∈ cs!"distance", _; decide

/-- Thirty-one nominal attributes. -/
def many : Val := .seq false (List.replicate 31 (.num (cs!"7")))

example : shown (reset (cs!"NaiveBayes") (cs!"NaiveBayes" ++ brackets [(cs!"nominal_attributes", many)])) =
    some [(cs!"nominal_attributes", '[' :: ((List.replicate 30 (cs!"7,")).flatten ++ cs!"...]"))] := by decide +kernel

example : Named [(cs!"nominal_attributes", many)] ∧ many.Simple ∧
    Printed (cs!"NaiveBayes") [(cs!"nominal_attributes", many)] (cs!"NaiveBayes" ++ brackets [(cs!"nominal_attributes", many)]) ∧
    ¬ cs!"NaiveBayes" <:+: squash (brackets [(cs!"nominal_attributes", many)]) := by
  refine ⟨by unfold Named IsName; decide, ?_, ⟨by rfl, by decide, by decide +kernel⟩, by decide +kernel⟩
  have : ∀ n, Simples (List.replicate n (.num (cs!"7"))) := by
    intro n
    induction n with
    | zero => trivial
    | succ n ih => exact ⟨⟨'7', [], rfl, by decide, by decide⟩, ih⟩
  exact this 31

/-- A pipeline with one step. -/
def steps : Val := .seq false [.seq true [.str (cs!"nb"), .obj (cs!"NaiveBayes") (cs!"nominal_attributes=None")]]

example : steps.Fails ∧ Printed (cs!"Pipeline") [(cs!"steps", steps)] (cs!"Pipeline(steps=[('nb', NaiveBayes(nominal_attributes=None))])") ∧
    ¬ cs!"Pipeline" <:+: squash (brackets [(cs!"steps", steps)]) := by
  refine ⟨?_, ⟨by decide +kernel, by decide, by decide⟩, by decide +kernel⟩
  refine .inl (.inr ⟨?_, .inl ⟨⟨by decide, by decide⟩, ?_, rfl⟩⟩)
  · change ∀ c ∈ cs!"nb", _; decide
  · rintro c r e
    rw [List.cons.injEq] at e
    obtain ⟨rfl, _⟩ := e
    decide

end Verif.Core.Reset
