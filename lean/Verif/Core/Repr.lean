import Verif.Common
import Verif.Core.Reset

/-!
# The text of an estimator (C269)

`repr(estimator)`: the one-line form of `_safe_repr`, the layout over several lines of
`_EstimatorPrettyPrinter` (with the `_format` of the standard library's `pprint`) and the shortening
of long texts by `__repr__`. Values are texts printed in one piece (None, truth values, numbers,
strings without white space, arrays, ...), lists, tuples, estimators. Not modelled: dictionaries,
strings with white space that do not fit a line (pprint breaks them), objects that contain
themselves.
-/

namespace Verif.Core.Repr

open Verif Verif.Core.Reset

/-- Character list of a literal. -/
local macro "cs!" s:str : term => do
  let cs := s.getString.toList.map fun c => Lean.Syntax.mkCharLit c
  `([$(cs.toArray),*])

/-- A text. -/
abbrev Txt := List Char

/-- A value: printed in one piece, a tuple (`true`) or list, a parameter with its value
(`KeyValTupleParam`, _pprint.py 83-85), an estimator with its parameters in alphabetical order. -/
inductive Val where
  | atom (t : Txt)
  | seq (tuple : Bool) (vs : List Val)
  | param (k : Txt) (v : Val)
  | est (name : Txt) (ps : List Val)

/-- What closes a sequence: tuples with one element have a comma (pprint's `_pprint_tuple`,
_pprint.py 372-381). -/
def ending (tuple : Bool) (n : Nat) : Txt := if tuple then (if n = 1 then cs!",)" else cs!")") else cs!"]"

mutual
/-- The form on one line, `_safe_repr`, _pprint.py 333-436; for a parameter `krepr + '=' + vrepr`,
lines 238-243 and 427. -/
def flat : Val → Txt
  | .atom t => t
  | .seq t vs => Reset.opening t :: (flats vs ++ ending t vs.length)
  | .param k v => k ++ '=' :: flat v
  | .est name ps => name ++ '(' :: (flats ps ++ [')'])
/-- `", ".join(components)`. -/
def flats : List Val → Txt
  | [] => []
  | [v] => flat v
  | v :: w :: vs => flat v ++ ',' :: ' ' :: flats (w :: vs)
end

/-- `',\n' + ' ' * indent`, _pprint.py 214 and 270. -/
def newline (indent : Int) : Txt := ',' :: '\n' :: List.replicate indent.toNat ' '

mutual
/-- `_format` of `pprint.PrettyPrinter` with width 80: the one-line form if it fits, otherwise the
printer of the type: lists and tuples (pprint `_pprint_list`, `_pprint_tuple`), parameters
(`_pprint_key_val_tuple`, _pprint.py 310-323; their own form is that of a tuple), estimators
(`_pprint_estimator`, 173-189). -/
def format : Val → Int → Int → Txt
  | .atom t, _, _ => t
  | .seq t vs, indent, allow =>
      if ((flat (.seq t vs)).length : Int) > 80 - indent - allow then
        Reset.opening t :: (items (indent + 1) (allow + (ending t vs.length).length) 0 []
          (80 - (indent + 1) + 1) (80 - (indent + 1) + 1) vs ++ ending t vs.length)
      else flat (.seq t vs)
  | .param k v, indent, allow =>
      if ((k.length + (flat v).length + 6 : Nat) : Int) > 80 - indent - allow then
        k ++ '=' :: format v (indent + k.length + 1) allow
      else '(' :: '\'' :: (k ++ '\'' :: ',' :: ' ' :: (flat v ++ [')']))
  | .est name ps, indent, allow =>
      if ((flat (.est name ps)).length : Int) > 80 - indent - allow then
        name ++ '(' :: (items (indent + name.length + 1) (allow + 1) 0 []
          (80 - (indent + name.length + 1) + 1) (80 - (indent + name.length + 1) + 1) ps ++ [')'])
      else flat (.est name ps)
/-- `_format_items` (_pprint.py 261-308) and `_format_params_or_dict_items` (200-259), which differ
in the form of an element only: `indent` is already increased, `n` elements have been written,
`delim`, `width` and `maxw` are the local variables. -/
def items (indent allow : Int) : Nat → Txt → Int → Int → List Val → Txt
  | _, _, _, _, [] => []
  | n, delim, width, maxw, v :: rest =>
      if n = 30 then cs!", ..."
      else
        let maxw' := if rest.isEmpty then maxw - allow else maxw
        let width' := if rest.isEmpty then width - allow else width
        let w : Int := (flat v).length + 2
        let delim' := if width' < w ∧ delim ≠ [] then newline indent else delim
        let width'' := if width' < w then maxw' else width'
        if width'' ≥ w then
          delim' ++ (flat v ++ items indent allow (n + 1) (cs!", ") (width'' - w) maxw' rest)
        else
          delim' ++ (format v indent (if rest.isEmpty then allow else 1) ++
            items indent allow (n + 1) (newline indent) width'' maxw' rest)
end

/-- `pp.pformat(self)`, base.py 260. -/
def pformat (v : Val) : Txt := format v 0 0

/-- Length of the shortest beginning of the text with `n` visible characters: `re.match(regex,
text).end()` with `regex = r'^(\s*\S){n}'`, base.py 266-274. -/
def visibleEnd : Nat → Txt → Nat
  | 0, _ => 0
  | _ + 1, [] => 0
  | n + 1, c :: t => if blank c then visibleEnd (n + 1) t + 1 else visibleEnd n t + 1

/-- Length of `[^\n]*\n` at the beginning of a text, base.py 285. -/
def lineEnd (t : Txt) : Nat := (t.takeWhile (· ≠ '\n')).length + 1

/-- `repr_[:left_lim] + '...' + repr_[-right_lim:]`, base.py 262-291. -/
def shorten (t : Txt) : Txt :=
  if (squash t).length > 700 then
    let left := visibleEnd 350 t
    let right := visibleEnd 350 t.reverse
    let right := if '\n' ∈ (t.take (t.length - right)).drop left then
        right + lineEnd (t.reverse.drop right) else right
    if left + 3 < t.length - right then t.take left ++ (cs!"..." ++ t.drop (t.length - right)) else t
  else t

/-- `__repr__`, base.py 246-293. -/
def repr (v : Val) : Txt := shorten (pformat v)

/-! ## Specification -/

mutual
/-- The text an estimator ought to have, up to white space: `name(p=v,...)`, of long sequences and
parameter lists the first thirty elements and dots. -/
def content : Val → Txt
  | .atom t => t
  | .seq true vs => '(' :: (contents 30 vs ++ (if vs.length = 1 then cs!",)" else cs!")"))
  | .seq false vs => '[' :: (contents 30 vs ++ cs!"]")
  | .param k v => k ++ '=' :: content v
  | .est name ps => name ++ '(' :: (contents 30 ps ++ [')'])
/-- The first `k` elements. -/
def contents : Nat → List Val → Txt
  | _, [] => []
  | 0, _ :: _ => cs!"..."
  | _ + 1, [v] => content v
  | k + 1, v :: w :: vs => content v ++ ',' :: contents k (w :: vs)
end

mutual
/-- Values (`false`) and parameters (`true`) as they occur: texts and names are not empty, the
elements of sequences are values, the elements of estimators parameters. -/
def Val.Ok : Bool → Val → Prop
  | p, .atom t => p = false ∧ t ≠ []
  | p, .seq _ vs => p = false ∧ Oks false vs
  | p, .param k v => p = true ∧ k ≠ [] ∧ v.Ok false
  | p, .est _ ps => p = false ∧ Oks true ps
/-- See `Val.Ok`. -/
def Oks : Bool → List Val → Prop
  | _, [] => True
  | p, v :: vs => v.Ok p ∧ Oks p vs
end

/-! ## Layout -/

theorem content_seq (t : Bool) (vs : List Val) :
    content (.seq t vs) = Reset.opening t :: (contents 30 vs ++ ending t vs.length) := by
  cases t <;> rfl

theorem opening_visible (t : Bool) : blank (Reset.opening t) = false := by cases t <;> decide

theorem squash_newline (i : Int) : squash (newline i) = [','] := by
  unfold newline
  rw [squash_cons _ _ (by decide)]
  congr 1
  unfold squash
  rw [List.filter_eq_nil_iff]
  intro c hc
  simp only [List.mem_cons, List.mem_replicate] at hc
  rcases hc with rfl | ⟨_, rfl⟩ <;> decide

mutual
theorem flat_pos : ∀ (v : Val) (p : Bool), v.Ok p → 1 ≤ (flat v).length
  | .atom t, p, h => by
    simp only [Val.Ok] at h
    simp only [flat]
    exact List.length_pos_iff.2 h.2
  | .seq t vs, p, h => by simp [flat]
  | .param k v, p, h => by simp only [flat, List.length_append, List.length_cons]; omega
  | .est name ps, p, h => by simp only [flat, List.length_append, List.length_cons]; omega
theorem flats_len : ∀ (vs : List Val) (p : Bool), Oks p vs → 3 * vs.length ≤ (flats vs).length + 2
  | [], p, h => by simp
  | [v], p, h => by
    have := flat_pos v p h.1
    simp only [flats, List.length_cons, List.length_nil]
    omega
  | v :: w :: vs, p, h => by
    have h1 := flat_pos v p h.1
    have h2 := flats_len (w :: vs) p h.2
    simp only [flats, List.length_append, List.length_cons] at h2 ⊢
    omega
end

theorem ending_len (t : Bool) (n : Nat) : 1 ≤ (ending t n).length := by
  unfold ending
  cases t
  · simp
  · by_cases h : n = 1 <;> simp [h]

mutual
/-- A text that fits a line leaves nothing out. -/
theorem flat_small : ∀ (v : Val) (p : Bool), v.Ok p → (flat v).length ≤ 80 → squash (flat v) = squash (content v)
  | .atom t, p, h, hl => rfl
  | .seq t vs, p, h, hl => by
    simp only [Val.Ok] at h
    have h1 := flats_len vs false h.2
    have h2 := ending_len t vs.length
    simp only [flat, List.length_cons, List.length_append] at hl
    have h3 := flats_small vs false h.2 (by omega) 30 (by omega)
    simp only [flat, content_seq]
    rw [squash_cons _ _ (opening_visible t), squash_cons _ _ (opening_visible t), squash_append, squash_append, h3]
  | .param k v, p, h, hl => by
    simp only [Val.Ok] at h
    simp only [flat, List.length_cons, List.length_append] at hl
    have h3 := flat_small v false h.2.2 (by omega)
    simp only [flat, content]
    rw [squash_append, squash_append, squash_cons _ _ (by decide), squash_cons _ _ (by decide), h3]
  | .est name ps, p, h, hl => by
    simp only [Val.Ok] at h
    have h1 := flats_len ps true h.2
    simp only [flat, List.length_cons, List.length_append, List.length_nil] at hl
    have h3 := flats_small ps true h.2 (by omega) 30 (by omega)
    simp only [flat, content]
    rw [squash_append, squash_append, squash_cons _ _ (by decide), squash_cons _ _ (by decide), squash_append,
      squash_append, h3]
theorem flats_small : ∀ (vs : List Val) (p : Bool), Oks p vs → (flats vs).length ≤ 80 → ∀ k, vs.length ≤ k →
    squash (flats vs) = squash (contents k vs)
  | [], p, h, hl, k, hk => by cases k <;> rfl
  | [v], p, h, hl, k, hk => by
    obtain ⟨k, rfl⟩ : ∃ j, k = j + 1 := ⟨k - 1, by simp at hk; omega⟩
    simp only [flats] at hl
    simp only [flats, contents]
    exact flat_small v p h.1 hl
  | v :: w :: vs, p, h, hl, k, hk => by
    obtain ⟨k, rfl⟩ : ∃ j, k = j + 1 := ⟨k - 1, by simp at hk; omega⟩
    simp only [flats, List.length_append, List.length_cons] at hl
    have h1 := flat_small v p h.1 (by omega)
    have h2 := flats_small (w :: vs) p h.2 (by omega) k (by simpa using hk)
    simp only [flats, contents]
    rw [squash_append, squash_append, squash_cons ',' _ (by decide), squash_cons ',' _ (by decide), h1, ← h2]
    rfl
end

mutual
theorem format_squash : ∀ (v : Val) (p : Bool) (indent allow : Int), v.Ok p → 0 ≤ indent → 0 ≤ allow →
    (p = true → 80 - indent - allow < (flat v).length + 5) → squash (format v indent allow) = squash (content v)
  | .atom t, p, indent, allow, h, hi, ha, hf => by simp only [format, content]
  | .seq t vs, p, indent, allow, h, hi, ha, hf => by
    have h0 := h
    simp only [Val.Ok] at h
    simp only [format]
    by_cases hc : ((flat (.seq t vs)).length : Int) > 80 - indent - allow
    · rw [if_pos hc]
      have := items_squash vs false (indent + 1) (allow + (ending t vs.length).length) 0 [] (80 - (indent + 1) + 1)
        (80 - (indent + 1) + 1) h.2 (by omega) (by omega) (by omega) (le_refl _) (fun _ => by omega) (.inl ⟨rfl, rfl⟩)
      simp only [content_seq]
      rw [squash_cons _ _ (opening_visible t), squash_cons _ _ (opening_visible t), squash_append, squash_append, this]
      cases vs <;> rfl
    · rw [if_neg hc]
      exact flat_small _ p h0 (by omega)
  | .param k v, p, indent, allow, h, hi, ha, hf => by
    simp only [Val.Ok] at h
    have hf := hf h.1
    simp only [flat, List.length_append, List.length_cons] at hf
    simp only [format]
    rw [if_pos (by push_cast at hf ⊢; omega)]
    have := format_squash v false (indent + k.length + 1) allow h.2.2 (by omega) ha (by simp)
    simp only [content]
    rw [squash_append, squash_append, squash_cons _ _ (by decide), squash_cons _ _ (by decide), this]
  | .est name ps, p, indent, allow, h, hi, ha, hf => by
    have h0 := h
    simp only [Val.Ok] at h
    simp only [format]
    by_cases hc : ((flat (.est name ps)).length : Int) > 80 - indent - allow
    · rw [if_pos hc]
      have := items_squash ps true (indent + name.length + 1) (allow + 1) 0 [] (80 - (indent + name.length + 1) + 1)
        (80 - (indent + name.length + 1) + 1) h.2 (by omega) (by omega) (by omega) (le_refl _) (fun _ => by omega) (.inl ⟨rfl, rfl⟩)
      simp only [content]
      rw [squash_append, squash_append, squash_cons _ _ (by decide), squash_cons _ _ (by decide), squash_append,
        squash_append, this]
      cases ps <;> rfl
    · rw [if_neg hc]
      exact flat_small _ p h0 (by omega)
theorem items_squash : ∀ (vs : List Val) (p : Bool) (indent allow : Int) (n : Nat) (delim : Txt) (width maxw : Int),
    Oks p vs → 0 < indent → 0 ≤ allow → n ≤ 30 → width ≤ maxw → (vs ≠ [] → maxw = 81 - indent) →
    ((n = 0 ∧ delim = []) ∨ (0 < n ∧ squash delim = [','])) →
    squash (items indent allow n delim width maxw vs) =
      if vs.isEmpty then [] else squash delim ++ squash (contents (30 - n) vs)
  | [], p, indent, allow, n, delim, width, maxw, h, hi, ha, hn, hw, hm, hd => by simp only [items]; rfl
  | v :: rest, p, indent, allow, n, delim, width, maxw, h, hi, ha, hn, hw, hm, hd => by
    by_cases hn30 : n = 30
    · subst hn30
      have hd : squash delim = [','] := by
        rcases hd with hd | hd
        · exact absurd hd.1 (by decide)
        · exact hd.2
      simp only [items]
      rw [if_pos trivial, hd]
      rfl
    · have ih := fun width' maxw' hw' hm' delim' hd' => items_squash rest p indent allow (n + 1) delim' width' maxw'
        h.2 hi ha (by omega) hw' hm' (.inr ⟨by omega, hd'⟩)
      obtain ⟨k, hk⟩ : ∃ k, 30 - n = k + 1 := ⟨30 - n - 1, by omega⟩
      have hk' : 30 - (n + 1) = k := by omega
      have hcont : squash (contents (30 - n) (v :: rest)) =
          squash (content v) ++ (if rest.isEmpty then [] else [','] ++ squash (contents (30 - (n + 1)) rest)) := by
        rw [hk, hk']
        cases rest with
        | nil => simp [contents]
        | cons w rest =>
          simp only [contents]
          rw [squash_append, squash_cons ',' _ (by decide)]
          rfl
      have hdel : ∀ P : Prop, ∀ _ : Decidable P, squash (if P ∧ delim ≠ [] then newline indent else delim) = squash delim := by
        intro P _
        by_cases hP : P ∧ delim ≠ []
        · rw [if_pos hP, squash_newline]
          rcases hd with hd | hd
          · exact absurd hd.2 hP.2
          · exact hd.2.symm
        · rw [if_neg hP]
      simp only [items]
      rw [if_neg hn30]
      rw [hcont]
      generalize hmx : (if rest.isEmpty = true then maxw - allow else maxw) = maxw'
      generalize hwx : (if rest.isEmpty = true then width - allow else width) = width'
      have hm := hm (by simp)
      have hmw : width' ≤ maxw' ∧ maxw' ≤ 81 - indent := by
        rw [← hmx, ← hwx]
        cases rest.isEmpty <;> simp <;> omega
      have hmr : rest ≠ [] → maxw' = 81 - indent := by
        intro hr
        rw [← hmx, hm]
        cases rest with
        | nil => exact absurd rfl hr
        | cons _ _ => rfl
      have hbig : maxw' < (flat v).length + 2 → 80 - indent - (if rest.isEmpty then allow else 1) < (flat v).length + 5 := by
        rw [← hmx]
        cases rest.isEmpty <;> simp <;> omega
      by_cases hwd : width' < ((flat v).length : Int) + 2
      · by_cases hfit : maxw' ≥ ((flat v).length : Int) + 2
        · simp only [hwd, if_true, true_and, hfit]
          have hsm := flat_small v p h.1 (by omega)
          rw [squash_append, squash_append, hsm, ih _ _ (by omega) hmr _ (by decide)]
          have := hdel True inferInstance
          simp only [true_and] at this
          rw [this]
          cases rest <;> simp <;> rfl
        · simp only [hwd, if_true, true_and, hfit, if_false]
          have hfm := format_squash v p indent (if rest.isEmpty then allow else 1) h.1 (by omega)
            (by cases rest.isEmpty <;> simp [ha]) (fun _ => hbig (by omega))
          rw [squash_append, squash_append, hfm, ih _ _ (le_refl _) hmr _ (squash_newline indent)]
          have := hdel True inferInstance
          simp only [true_and] at this
          rw [this]
          cases rest <;> simp [squash_newline]
      · simp only [hwd, if_false, false_and]
        rw [if_pos (by omega)]
        have hsm := flat_small v p h.1 (by omega)
        rw [squash_append, squash_append, hsm, ih _ _ (by omega) hmr _ (by decide)]
        cases rest <;> simp <;> rfl
end

/-! ## Shortening -/

/-- Number of visible characters. -/
def visible (t : Txt) : Nat := (t.filter fun c => !blank c).length

/-- `left ++ mid ++ right` is a way to leave out the middle of a text: `left` ends with the 350th
visible character, `right` has at least 350 visible characters and begins at the end of a line, or,
if nothing but a part of one line is left out, it begins with the 350th visible character from the
end. -/
structure Cut (text left mid right : Txt) : Prop where
  parts : text = left ++ (mid ++ right)
  leftVisible : visible left = 350
  leftEnd : ∃ l c, left = l ++ [c] ∧ blank c = false
  rightVisible : 350 ≤ visible right
  rightStart : right.head? = some '\n' ∨
    ('\n' ∉ mid ∧ visible right = 350 ∧ ∃ c r, right = c :: r ∧ blank c = false)

theorem visible_append (a b : Txt) : visible (a ++ b) = visible a + visible b := by
  unfold visible; rw [List.filter_append, List.length_append]

theorem visible_cons (c : Char) (t : Txt) : visible (c :: t) = (if blank c then 0 else 1) + visible t := by
  unfold visible
  rw [List.filter_cons]
  cases blank c <;> simp; omega

theorem visible_reverse (t : Txt) : visible t.reverse = visible t := by
  unfold visible; rw [List.filter_reverse, List.length_reverse]

theorem end_spec (n : Nat) (t : Txt) (h : n ≤ visible t) :
    visibleEnd n t ≤ t.length ∧ visible (t.take (visibleEnd n t)) = n ∧
      (0 < n → ∃ l c, t.take (visibleEnd n t) = l ++ [c] ∧ blank c = false) := by
  induction t generalizing n with
  | nil =>
    have : n = 0 := by simpa [visible] using h
    subst this
    exact ⟨by simp [visibleEnd], by simp [visible], by simp⟩
  | cons a t ih =>
    cases n with
    | zero => exact ⟨by simp [visibleEnd], by simp [visibleEnd, visible], by simp⟩
    | succ n =>
      rw [visible_cons] at h
      cases hb : blank a with
      | true =>
        rw [hb] at h
        obtain ⟨h1, h2, h3⟩ := ih (n + 1) (by simpa using h)
        have e : visibleEnd (n + 1) (a :: t) = visibleEnd (n + 1) t + 1 := by simp only [visibleEnd]; rw [if_pos hb]
        rw [e, List.take_succ_cons]
        refine ⟨by simpa using h1, by rw [visible_cons, hb, h2]; simp, fun h0 => ?_⟩
        obtain ⟨l, c, h4, h5⟩ := h3 h0
        exact ⟨a :: l, c, by rw [h4]; rfl, h5⟩
      | false =>
        rw [hb] at h
        obtain ⟨h1, h2, h3⟩ := ih n (by simp at h; omega)
        have e : visibleEnd (n + 1) (a :: t) = visibleEnd n t + 1 := by
          simp only [visibleEnd]; rw [if_neg (by simp [hb])]
        rw [e, List.take_succ_cons]
        refine ⟨by simpa using h1, by rw [visible_cons, hb, h2]; simp; omega, fun _ => ?_⟩
        rcases Nat.eq_zero_or_pos n with h0 | h0
        · subst h0
          exact ⟨[], a, by simp [visibleEnd], hb⟩
        · obtain ⟨l, c, h4, h5⟩ := h3 h0
          exact ⟨a :: l, c, by rw [h4]; rfl, h5⟩

theorem end_min (n : Nat) (p s : Txt) (h : n ≤ visible p) : visibleEnd n (p ++ s) ≤ p.length := by
  induction p generalizing n with
  | nil =>
    have : n = 0 := by simpa [visible] using h
    subst this; simp [visibleEnd]
  | cons a p ih =>
    cases n with
    | zero => simp [visibleEnd]
    | succ n =>
      rw [visible_cons] at h
      simp only [List.cons_append, visibleEnd, List.length_cons]
      cases hb : blank a with
      | true =>
        rw [hb] at h
        have := ih (n + 1) (by simpa using h)
        simp only [if_true]; omega
      | false =>
        rw [hb] at h
        have := ih n (by simp at h; omega)
        simp only [Bool.false_eq_true, if_false]; omega

theorem end_unique (l : Txt) (c : Char) (s : Txt) (hc : blank c = false) :
    visibleEnd (visible (l ++ [c])) (l ++ [c] ++ s) = l.length + 1 := by
  induction l with
  | nil => simp [visible, hc, visibleEnd]
  | cons a l ih =>
    have hpos : ∃ m, visible (l ++ [c]) = m + 1 := ⟨visible l, by rw [visible_append]; simp [visible, hc]⟩
    obtain ⟨m, hm⟩ := hpos
    rw [hm] at ih
    rw [List.cons_append, visible_cons, hm, List.cons_append]
    cases hb : blank a with
    | true =>
      have : (if true = true then 0 else 1) + (m + 1) = m + 1 := by simp
      rw [this]
      simp only [visibleEnd, hb, List.length_cons, if_true]; rw [ih]
    | false =>
      have : (if false = true then 0 else 1) + (m + 1) = (m + 1) + 1 := by simp; omega
      rw [this]
      simp only [visibleEnd, hb, List.length_cons, Bool.false_eq_true, if_false]; rw [ih]

/-- The last `r` characters, read from the end. -/
theorem drop_reverse (t : Txt) (r : Nat) (h : r ≤ t.length) : t.drop (t.length - r) = (t.reverse.take r).reverse := by
  rw [List.take_reverse, List.reverse_reverse]

theorem lineEnd_le (t : Txt) (i : Nat) (h : t[i]? = some '\n') : lineEnd t ≤ i + 1 := by
  unfold lineEnd
  induction t generalizing i with
  | nil => simp at h
  | cons a t ih =>
    rw [List.takeWhile_cons]
    by_cases ha : a = '\n'
    · simp [ha]
    · rw [if_pos (by simpa using ha)]
      cases i with
      | zero => simp at h; exact absurd h ha
      | succ i =>
        have := ih i (by simpa using h)
        simp only [List.length_cons]; omega

theorem lineEnd_at (t : Txt) (h : '\n' ∈ t) : t[lineEnd t - 1]? = some '\n' ∧ lineEnd t ≤ t.length := by
  unfold lineEnd
  induction t with
  | nil => simp at h
  | cons a t ih =>
    rw [List.takeWhile_cons]
    by_cases ha : a = '\n'
    · simp [ha]
    · rw [if_pos (by simpa using ha)]
      have := ih (by
        rcases List.mem_cons.1 h with e | e
        · exact absurd e.symm ha
        · exact e)
      simp only [List.length_cons, Nat.add_sub_cancel] at this ⊢
      refine ⟨by simpa using this.1, by omega⟩

/-- What `shorten` does to a text with more than 700 visible characters. -/
theorem shorten_spec (t : Txt) (h : 700 < visible t) :
    (∃ left mid right, Cut t left mid right ∧ 3 < mid.length ∧ shorten t = left ++ (cs!"..." ++ right)) ∨
    (shorten t = t ∧ ∀ left mid right, Cut t left mid right → mid.length ≤ 3) := by
  obtain ⟨hl1, hl2, hl3⟩ := end_spec 350 t (by omega)
  obtain ⟨hr1, hr2, hr3⟩ := end_spec 350 t.reverse (by rw [visible_reverse]; omega)
  have hl3 := hl3 (by decide)
  have hr3 := hr3 (by decide)
  have hsq : (squash t).length > 700 := h
  rw [List.length_reverse] at hr1
  have hle : shorten t =
      (if visibleEnd 350 t + 3 < t.length - (if '\n' ∈ (t.take (t.length - visibleEnd 350 t.reverse)).drop (visibleEnd 350 t)
          then (visibleEnd 350 t.reverse + lineEnd (t.reverse.drop (visibleEnd 350 t.reverse)))
          else (visibleEnd 350 t.reverse)) then
        t.take (visibleEnd 350 t) ++ (cs!"..." ++ t.drop (t.length - (if '\n' ∈ (t.take (t.length - visibleEnd 350 t.reverse)).drop (visibleEnd 350 t)
          then (visibleEnd 350 t.reverse + lineEnd (t.reverse.drop (visibleEnd 350 t.reverse)))
          else (visibleEnd 350 t.reverse))))
      else t) := by
    unfold shorten
    rw [if_pos hsq]
  generalize hL : visibleEnd 350 t = L at *
  generalize hR : visibleEnd 350 t.reverse = R at *
  have hLcut : ∀ left mid right, Cut t left mid right → left.length = L := by
    intro left mid right hc
    obtain ⟨l, c, e, hb⟩ := hc.leftEnd
    have h1 := end_unique l c (mid ++ right) hb
    rw [← e, hc.leftVisible, ← hc.parts, hL] at h1
    rw [e, h1]; simp
  have hRcut : ∀ left mid right, Cut t left mid right → R ≤ right.length := by
    intro left mid right hc
    have h1 := end_min 350 right.reverse (left ++ mid).reverse (by rw [visible_reverse]; exact hc.rightVisible)
    rw [← List.reverse_append, List.append_assoc, ← hc.parts, hR, List.length_reverse] at h1
    exact h1
  have hlen : ∀ left mid right, Cut t left mid right → t.length = left.length + mid.length + right.length := by
    intro left mid right hc
    rw [hc.parts]; simp; omega
  -- the character at which the last 350 visible characters begin
  have hRvis : ∃ c r, t.drop (t.length - R) = c :: r ∧ blank c = false := by
    obtain ⟨l, c, e, hb⟩ := hr3
    exact ⟨c, l.reverse, by rw [drop_reverse t R hr1, e]; simp, hb⟩
  have hRv : visible (t.drop (t.length - R)) = 350 := by rw [drop_reverse t R hr1, visible_reverse, hr2]
  by_cases hn : '\n' ∈ (t.take (t.length - R)).drop L
  · simp only [hn, if_true] at hle
    have hmemR : '\n' ∈ t.reverse.drop R := by
      have h1 := List.mem_of_mem_drop hn
      rw [List.drop_reverse]
      exact List.mem_reverse.2 h1
    obtain ⟨hE1, hE2⟩ := lineEnd_at _ hmemR
    rw [List.length_drop, List.length_reverse] at hE2
    generalize hE : lineEnd (t.reverse.drop R) = E at *
    have hE0 : 0 < E := by rw [← hE]; unfold lineEnd; omega
    by_cases hc : L + 3 < t.length - (R + E)
    · rw [if_pos hc] at hle
      left
      refine ⟨t.take L, (t.take (t.length - (R + E))).drop L, t.drop (t.length - (R + E)), ⟨?_, hl2, hl3, ?_, .inl ?_⟩, ?_, hle⟩
      · rw [← List.append_assoc]
        have : t.take L = (t.take (t.length - (R + E))).take L := by rw [List.take_take]; congr 1; omega
        rw [this, List.take_append_drop, List.take_append_drop]
      · have : t.drop (t.length - R) = (t.drop (t.length - (R + E))).drop E := by
          rw [List.drop_drop]; congr 1; omega
        rw [← hRv, this]
        conv_rhs => rw [← List.take_append_drop E (t.drop (t.length - (R + E))), visible_append]
        omega
      · rw [List.getElem?_drop, List.getElem?_reverse (by omega)] at hE1
        rw [List.head?_drop, ← hE1]
        congr 1; omega
      · simp only [List.length_drop, List.length_take]; omega
    · rw [if_neg hc] at hle
      right
      refine ⟨hle, fun left mid right hcut => ?_⟩
      have h1 := hLcut _ _ _ hcut
      have h2 := hRcut _ _ _ hcut
      have h3 := hlen _ _ _ hcut
      rcases hcut.rightStart with hs | ⟨hm, hv, c, r, hr, hb⟩
      · -- `right` begins at the end of a line
        have hpos : t.reverse[right.length - 1]? = some '\n' := by
          rw [hcut.parts, List.reverse_append, List.reverse_append, List.append_assoc, List.getElem?_append_left (by
            cases right with
            | nil => simp at hs
            | cons _ _ => simp), List.getElem?_reverse (by
            cases right with
            | nil => simp at hs
            | cons _ _ => simp)]
          cases right with
          | nil => simp at hs
          | cons a r => simpa using hs
        have hRlt : R < right.length := by
          rcases Nat.lt_or_ge R right.length with h4 | h4
          · exact h4
          · exfalso
            have h5 : right.length = R := by omega
            obtain ⟨c, r, h6, hb⟩ := hRvis
            have h7 : t.drop (t.length - R) = right := by
              have e : t.length - R = (left ++ mid).length := by simp only [List.length_append]; omega
              rw [e, hcut.parts, ← List.append_assoc, List.drop_left]
            rw [h7] at h6
            rw [h6] at hs
            simp only [List.head?_cons, Option.some.injEq] at hs
            rw [hs] at hb
            exact absurd hb (by decide)
        have h8 := lineEnd_le (t.reverse.drop R) (right.length - 1 - R) (by
          rw [List.getElem?_drop, show R + (right.length - 1 - R) = right.length - 1 by omega]; exact hpos)
        rw [hE] at h8
        omega
      · -- `right` is the last 350 visible characters: then the middle has a line end
        exfalso
        have h4 : right.length = R := by
          have h5 := end_unique r.reverse c (left ++ mid).reverse hb
          have h6 : r.reverse ++ [c] = right.reverse := by rw [hr]; simp
          rw [h6, visible_reverse, hv, ← List.reverse_append, List.append_assoc, ← hcut.parts, hR] at h5
          rw [h5, hr]; simp
        have h7 : (t.take (t.length - R)).drop L = mid := by
          have e : t.length - R = (left ++ mid).length := by simp; omega
          rw [e]
          rw [hcut.parts, ← List.append_assoc, List.take_left, ← h1, List.drop_left]
        rw [h7] at hn
        exact hm hn
  · simp only [hn, if_false] at hle
    by_cases hc : L + 3 < t.length - R
    · rw [if_pos hc] at hle
      left
      refine ⟨t.take L, (t.take (t.length - R)).drop L, t.drop (t.length - R), ⟨?_, hl2, hl3, hRv.ge, .inr ⟨hn, hRv, hRvis⟩⟩, ?_, hle⟩
      · rw [← List.append_assoc]
        have : t.take L = (t.take (t.length - R)).take L := by rw [List.take_take]; congr 1; omega
        rw [this, List.take_append_drop, List.take_append_drop]
      · simp only [List.length_drop, List.length_take]; omega
    · rw [if_neg hc] at hle
      right
      refine ⟨hle, fun left mid right hcut => ?_⟩
      have h1 := hLcut _ _ _ hcut
      have h2 := hRcut _ _ _ hcut
      have h3 := hlen _ _ _ hcut
      omega

/-- C269: the text of an estimator is, apart from white space, `name(p=v, ...)` with all parameters in
order, sequences and parameter lists cut after thirty elements. A text with more than 700 visible
characters is cut: `repr` keeps the first 350 visible characters and at least the last 350, starting
with a new line where lines are left out, and puts three dots in between, unless no such cut leaves out
more than three characters. -/
theorem C269_repr (v : Val) (h : v.Ok false) :
    ∃ text, text.filter (fun c => !blank c) = (content v).filter (fun c => !blank c) ∧
      (visible (content v) ≤ 700 → repr v = text) ∧
      (700 < visible (content v) →
        (∃ left mid right, Cut text left mid right ∧ 3 < mid.length ∧ repr v = left ++ (cs!"..." ++ right)) ∨
        (repr v = text ∧ ∀ left mid right, Cut text left mid right → mid.length ≤ 3)) := by
  have hs : squash (pformat v) = squash (content v) :=
    format_squash v false 0 0 h (le_refl _) (le_refl _) (by simp)
  have hv : visible (pformat v) = visible (content v) := congrArg List.length hs
  refine ⟨pformat v, hs, fun h7 => ?_, fun h7 => ?_⟩
  · unfold repr shorten
    have : ¬ (squash (pformat v)).length > 700 := by rw [hs]; exact Nat.not_lt.2 h7
    rw [if_neg this]
  · exact shorten_spec (pformat v) (by rw [hv]; exact h7)

/-! ## Resetting what was printed -/

mutual
/-- The values of the model of `reset()`. -/
def ofReset : Reset.Val → Val
  | .none => .atom (cs!"None")
  | .bool true => .atom (cs!"True")
  | .bool false => .atom (cs!"False")
  | .num t => .atom t
  | .str s => .atom ('\'' :: (s ++ ['\'']))
  | .seq t vs => .seq t (ofResets vs)
  | .ellipsis => .atom (cs!"Ellipsis")
  | .obj name inside => .atom (name ++ '(' :: (inside ++ [')']))
/-- See `ofReset`. -/
def ofResets : List Reset.Val → List Val
  | [] => []
  | v :: vs => ofReset v :: ofResets vs
end

/-- An estimator with parameters. -/
def estimator (cls : Txt) (ps : List (Txt × Reset.Val)) : Val :=
  .est cls (ps.map fun p => .param p.1 (ofReset p.2))

theorem ofResets_length (vs : List Reset.Val) : (ofResets vs).length = vs.length := by
  induction vs with
  | nil => rfl
  | cons v vs ih => simp [ofResets, ih]

mutual
theorem content_ofReset : ∀ v : Reset.Val, content (ofReset v) = v.text
  | .none => rfl
  | .bool true => rfl
  | .bool false => rfl
  | .num t => rfl
  | .str s => rfl
  | .ellipsis => rfl
  | .obj name inside => rfl
  | .seq t vs => by
    simp only [ofReset, content_seq, Reset.Val.text]
    rw [contents_ofReset 30 vs, ofResets_length]
    congr 2
    unfold ending comma1 closing
    cases t
    · rfl
    · by_cases h : vs.length = 1
      · simp [h]
      · simp [h]
theorem contents_ofReset : ∀ (k : Nat) (vs : List Reset.Val), contents k (ofResets vs) = Reset.texts k vs
  | k, [] => by cases k <;> rfl
  | 0, v :: vs => rfl
  | k + 1, [v] => by simp only [ofResets, contents, Reset.texts]; exact content_ofReset v
  | k + 1, v :: w :: vs => by
    have := contents_ofReset k (w :: vs)
    simp only [ofResets] at this
    simp only [ofResets, contents, Reset.texts]
    rw [this, content_ofReset v]
end

mutual
theorem ok_ofReset : ∀ v : Reset.Val, v.Simple → (ofReset v).Ok false
  | .none, _ => by simp [ofReset, Val.Ok]
  | .bool true, _ => by simp [ofReset, Val.Ok]
  | .bool false, _ => by simp [ofReset, Val.Ok]
  | .num t, h => by
    obtain ⟨c, r, e, _⟩ := h
    simp only [ofReset, Val.Ok]
    exact ⟨trivial, by rw [e]; simp⟩
  | .str s, _ => by simp [ofReset, Val.Ok]
  | .ellipsis, _ => by simp [ofReset, Val.Ok]
  | .obj name inside, h => h.elim
  | .seq t vs, h => by
    simp only [ofReset, Val.Ok]
    exact ⟨trivial, oks_ofReset vs h⟩
theorem oks_ofReset : ∀ vs : List Reset.Val, Reset.Simples vs → Oks false (ofResets vs)
  | [], _ => trivial
  | v :: vs, h => ⟨ok_ofReset v h.1, oks_ofReset vs h.2⟩
end

theorem contents_params (ps : List (Txt × Reset.Val)) (k : Nat) (h : ps.length ≤ k) :
    contents k (ps.map fun p => .param p.1 (ofReset p.2)) = argText ps := by
  induction ps generalizing k with
  | nil => cases k <;> rfl
  | cons p ps ih =>
    obtain ⟨k, rfl⟩ : ∃ j, k = j + 1 := ⟨k - 1, by simp at h; omega⟩
    obtain ⟨a, v⟩ := p
    cases ps with
    | nil => simp only [List.map_cons, List.map_nil, contents, content, argText, content_ofReset]
    | cons q ps =>
      have := ih k (by simpa using h)
      simp only [List.map_cons] at this
      simp only [List.map_cons, contents, content, argText, content_ofReset]
      rw [this, List.append_assoc]
      rfl

theorem estimator_ok (cls : Txt) (ps : List (Txt × Reset.Val)) (hk : Named ps) (hs : ∀ p ∈ ps, p.2.Simple) :
    (estimator cls ps).Ok false := by
  simp only [estimator, Val.Ok]
  refine ⟨trivial, ?_⟩
  induction ps with
  | nil => trivial
  | cons p ps ih =>
    refine ⟨?_, ih (fun q hq => hk q (by simp [hq])) (fun q hq => hs q (by simp [hq]))⟩
    simp only [Val.Ok]
    exact ⟨trivial, (hk p (by simp)).1, ok_ofReset _ (hs p (by simp))⟩

/-- C243 (partial), for the text `repr` really returns: `reset()` calls `__init__` with exactly the
present parameters. (`Tame`: no white space in strings, at most thirty elements in sequences.) -/
theorem C243_repr_reset_partial (cls : Txt) (hc : IsName cls) (ps : List (Txt × Reset.Val)) (hk : Named ps)
    (hs : ∀ p ∈ ps, p.2.Simple) (ht : ∀ p ∈ ps, p.2.Tame) (hl : ps.length ≤ 30)
    (hv : visible (cls ++ brackets ps) ≤ 700) (hn : ¬ cls <:+: squash (brackets ps)) :
    reset cls (repr (estimator cls ps)) = .ok ps := by
  have hcont : content (estimator cls ps) = cls ++ brackets ps := by
    simp only [estimator, content, brackets]
    rw [contents_params ps 30 hl]
  obtain ⟨text, h1, h2, _⟩ := C269_repr _ (estimator_ok cls ps hk hs)
  rw [hcont] at h1 h2
  rw [h2 hv]
  refine C243_reset_partial cls hc ps hk hs ht text ⟨h1, hl, ?_⟩ hn
  change (text.filter fun c => !blank c).length ≤ 700
  rw [h1]
  exact hv

/-! ## Cases -/

/-- An estimator with thirty-two parameters. -/
def wide : Val := .est (cs!"Forest") ((List.range 32).map fun i => .param (cs!"p" ++ List.replicate i '_') (.atom (cs!"1")))

theorem wide_ok : wide.Ok false := by
  simp only [wide, Val.Ok]
  refine ⟨trivial, ?_⟩
  generalize List.range 32 = l
  induction l with
  | nil => trivial
  | cons i l ih => exact ⟨by simp [Val.Ok], ih⟩

example : wide.Ok false ∧ visible (content wide) ≤ 700 := ⟨wide_ok, by decide +kernel⟩

example : repr (.est (cs!"NaiveBayes") [.param (cs!"nominal_attributes") (.seq false [.atom (cs!"1"), .atom (cs!"12")])]) =
    cs!"NaiveBayes(nominal_attributes=[1, 12])" := by decide +kernel

/-- Twelve parameters of seventy characters: the text is cut. -/
def long : Val := .est (cs!"F") ((List.range 12).map fun i => .param (List.replicate (60 + i) 'p') (.atom (cs!"12345678")))

theorem long_ok : long.Ok false := by
  simp only [long, Val.Ok]
  refine ⟨trivial, ?_⟩
  generalize List.range 12 = l
  induction l with
  | nil => trivial
  | cons i l ih => exact ⟨by simp [Val.Ok], ih⟩

example : long.Ok false ∧ 700 < visible (content long) ∧ (repr long).length < (pformat long).length :=
  ⟨long_ok, by decide +kernel, by decide +kernel⟩

end Verif.Core.Repr
