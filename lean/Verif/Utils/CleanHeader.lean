import Verif.Common
import Verif.Evaluation.Report
import Mathlib.Data.List.Basic
import Mathlib.Tactic.NormNum

/-!
# Removing the header of a file (C228)

Model of `clean_header` and of `RemoveHeader`, `src/skmultiflow/utils/file_scripts.py`
24-44 and 82-114 (the same code twice).  A file system maps paths to texts; paths and
texts are lists of characters.  The translation of line ends that `open` does on some
systems, permissions and full disks are not modelled.
-/

namespace Verif.Utils.Header

open Verif

/-- Texts and paths. -/
abbrev Str := List Char

/-- The file system: `none` where there is no file. -/
abbrev FS := Str → Option Str

/-- `s.split(".")`. -/
def splitDot : Str → List Str
  | [] => [[]]
  | c :: s =>
    if c = '.' then [] :: splitDot s
    else match splitDot s with
      | [] => [[c]]
      | w :: l => (c :: w) :: l

/-- The default name of the new file, file_scripts.py 28-35 (and 88-95). -/
def defaultName (base : Str) : Str :=
  let path := splitDot base
  let basePath := path.getD 0 [] ++ cs!"_no_header"
  if path.length > 1 then basePath ++ ['.'] ++ path.getD 1 [] else basePath

/-- The new file's name, file_scripts.py 25-35. -/
def newName (base : Str) (new : Option Str) : Str :=
  match new with
  | some nf => nf
  | none => defaultName base

/-- The lines that iterating a text file gives: each with its newline, the last one
maybe without. -/
def lines : Str → List Str
  | [] => []
  | c :: s =>
    if c = '\n' then [c] :: lines s
    else match lines s with
      | [] => [[c]]
      | w :: l => (c :: w) :: l

/-- `line[0] == ignore_char`; a line is never empty. -/
def starts (ignore : Str) : Str → Bool
  | [] => false
  | c :: _ => [c] == ignore

/-- `clean_header(base_file, new_file, ignore_char)`, file_scripts.py 38-44: the base
file is opened, then the new file is opened and emptied, then the lines are read one by
one and written. -/
def cleanHeader (fs : FS) (base : Str) (new : Option Str) (ignore : Str) : Except PyErr FS :=
  match fs base with
  | none => .error .other
  | some _ =>
    let nf := newName base new
    -- `open(nf, 'w+')`
    let fs1 : FS := fun p => if p = nf then some [] else fs p
    let input := (fs1 base).getD []
    let out := ((lines input).filter fun l => !starts ignore l).flatten
    .ok fun p => if p = nf then some out else fs1 p

/-! ## Specification -/

/-- `ls` are the lines of a text: joined they are the text, every line but the last ends
with its only newline, and the last is not empty. -/
inductive LinesOf : Str → List Str → Prop
  | none : LinesOf [] []
  | last {w} : w ≠ [] → '\n' ∉ w → LinesOf w [w]
  | line {w s l} : '\n' ∉ w → LinesOf s l → LinesOf (w ++ '\n' :: s) ((w ++ ['\n']) :: l)

theorem linesOf_lines (s : Str) : LinesOf s (lines s) := by
  induction s with
  | nil => exact .none
  | cons c s ih =>
    simp only [lines]
    by_cases h : c = '\n'
    · rw [if_pos h, h]
      exact .line (w := []) (by simp) ih
    · rw [if_neg h]
      have hc : '\n' ≠ c := fun e => h e.symm
      cases hl : lines s with
      | nil =>
        rw [hl] at ih
        cases ih
        exact .last (by simp) (by simpa using hc)
      | cons w l =>
        rw [hl] at ih
        cases ih with
        | last h1 h2 => exact .last (by simp) (by simp [hc, h2])
        | line h1 h2 =>
          exact .line (w := c :: _) (by simp [hc, h1]) h2

/-- A text has only one division into lines. -/
theorem linesOf_unique {s : Str} {l l' : List Str} (h : LinesOf s l) :
    LinesOf s l' → l = l' := by
  have cut : ∀ (w w' s s' : Str), '\n' ∉ w → '\n' ∉ w' →
      w ++ '\n' :: s = w' ++ '\n' :: s' → w = w' ∧ s = s' := by
    intro w
    induction w with
    | nil =>
      intro w' s s' _ h2 e
      cases w' with
      | nil => simpa using e
      | cons c w' =>
        simp only [List.nil_append, List.cons_append, List.cons.injEq] at e
        exact absurd (by rw [← e.1]; simp) h2
    | cons c w ih =>
      intro w' s s' h1 h2 e
      cases w' with
      | nil =>
        simp only [List.nil_append, List.cons_append, List.cons.injEq] at e
        exact absurd (by simp [e.1]) h1
      | cons c' w' =>
        simp only [List.cons_append, List.cons.injEq] at e
        obtain ⟨r1, r2⟩ := ih w' s s' (fun h => h1 (by simp [h])) (fun h => h2 (by simp [h])) e.2
        exact ⟨by rw [e.1, r1], r2⟩
  induction h generalizing l' with
  | none =>
    intro h'
    generalize hs : ([] : Str) = t at h'
    cases h' with
    | none => rfl
    | last h1 _ => exact absurd hs.symm h1
    | line h1 h2 => exact absurd hs (by simp)
  | last h1 h2 =>
    rename_i w
    intro h'
    generalize hs : w = t at h'
    cases h' with
    | none => exact absurd hs h1
    | last _ _ => rfl
    | line h3 h4 => exact absurd (by rw [hs]; simp) h2
  | line h1 _ ih =>
    rename_i w s l _
    intro h'
    generalize hs : w ++ '\n' :: s = t at h'
    cases h' with
    | none => exact absurd hs (by simp)
    | last h3 h4 => exact absurd (by rw [← hs]; simp) h4
    | line h3 h4 =>
      obtain ⟨r1, r2⟩ := cut _ _ _ _ h1 h3 hs
      subst r1; subst r2
      rw [ih h4]

theorem splitDot_nodot {s : Str} (h : '.' ∉ s) : splitDot s = [s] := by
  induction s with
  | nil => rfl
  | cons c s ih =>
    rw [List.mem_cons, not_or] at h
    simp only [splitDot]
    rw [if_neg (fun e => h.1 e.symm), ih h.2]

theorem splitDot_dot {w : Str} (h : '.' ∉ w) (s : Str) :
    splitDot (w ++ '.' :: s) = w :: splitDot s := by
  induction w with
  | nil => simp [splitDot]
  | cons c w ih =>
    rw [List.mem_cons, not_or] at h
    simp only [List.cons_append, splitDot]
    rw [if_neg (fun e => h.1 e.symm), ih h.2]

/-- **C228**, what holds: cleaning a file into another one leaves every other file, the
base file among them, as it was, and the new file has, in their order, exactly the
lines of the base file that do not start with the ignored character (wherever they are
in the file).  A missing base file is an error.  Without a name for the new file it is
the base name with `_no_header` before the extension, if the base name has at most one
dot; it differs from the base name. -/
theorem C228_clean_partial (fs : FS) (base : Str) (new : Option Str) (c : Char) :
    (fs base = none → cleanHeader fs base new [c] = .error .other) ∧
    (∀ text ls, fs base = some text → LinesOf text ls → newName base new ≠ base →
      ∃ fs', cleanHeader fs base new [c] = .ok fs' ∧
        fs' (newName base new) = some (ls.filter fun l => decide (l.head? ≠ some c)).flatten ∧
        fs' base = fs base ∧
        ∀ p, p ≠ newName base new → fs' p = fs p) ∧
    (∀ nf, newName base (some nf) = nf) ∧
    (∀ w e, '.' ∉ w → '.' ∉ e → base = w ++ '.' :: e →
      newName base none = w ++ cs!"_no_header" ++ '.' :: e ∧ newName base none ≠ base) ∧
    ('.' ∉ base → newName base none = base ++ cs!"_no_header" ∧ newName base none ≠ base) := by
  refine ⟨?_, ?_, fun _ => rfl, ?_, ?_⟩
  · intro h; unfold cleanHeader; rw [h]
  · intro text ls h hl hne
    have hne' : base ≠ newName base new := fun e => hne e.symm
    unfold cleanHeader
    rw [h]
    refine ⟨_, rfl, ?_, ?_, ?_⟩
    · simp only [if_neg hne', h, Option.getD_some, if_true]
      rw [linesOf_unique (linesOf_lines text) hl]
      congr 2
      apply List.filter_congr
      intro l _
      cases l with
      | nil => simp [starts]
      | cons a l => by_cases ha : a = c <;> simp [starts, ha]
    · simp only [if_neg hne', h]
    · intro p hp
      simp only [if_neg hp]
  · intro w e hw he hb
    have e1 : newName base none = w ++ cs!"_no_header" ++ '.' :: e := by
      unfold newName defaultName
      rw [hb, splitDot_dot hw, splitDot_nodot he]
      simp
    refine ⟨e1, fun h => ?_⟩
    have := congrArg List.length (e1.symm.trans (h.trans hb))
    simp only [List.length_append, List.length_cons, List.length_nil] at this
    omega
  · intro h
    have e1 : newName base none = base ++ cs!"_no_header" := by
      unfold newName defaultName
      rw [splitDot_nodot h]
      simp
    refine ⟨e1, fun h' => ?_⟩
    have := congrArg List.length (e1.symm.trans h')
    simp only [List.length_append, List.length_cons, List.length_nil] at this
    omega

/-- **C228 is violated** for names with more than one dot: everything from the second
dot on is lost, so that all files `w.e.…` are cleaned into the same file and the second
overwrites the first. -/
theorem C228_dots_violated (w e r r' : Str) (hw : '.' ∉ w) (he : '.' ∉ e) :
    defaultName (w ++ '.' :: (e ++ '.' :: r)) = w ++ cs!"_no_header" ++ '.' :: e ∧
    defaultName (w ++ '.' :: (e ++ '.' :: r)) = defaultName (w ++ '.' :: (e ++ '.' :: r')) := by
  have h : ∀ r, defaultName (w ++ '.' :: (e ++ '.' :: r)) = w ++ cs!"_no_header" ++ '.' :: e := by
    intro r
    unfold defaultName
    rw [splitDot_dot hw, splitDot_dot he]
    simp
  exact ⟨h r, by rw [h r, h r']⟩

/-- A file given relative to the current directory or to the one above. -/
example : defaultName cs!"./data/iris.csv" = cs!"_no_header./data/iris" ∧
    defaultName cs!"../iris.csv" = cs!"_no_header." ∧
    defaultName cs!"data/iris.v2.csv" = cs!"data/iris_no_header.v2" ∧
    defaultName cs!"data/iris.csv" = cs!"data/iris_no_header.csv" := by decide +kernel

/-- **C228 is violated** when the new file is the base file: the file is emptied. -/
theorem C228_same_file_violated (fs : FS) (base : Str) (text : Str) (ignore : Str)
    (h : fs base = some text) :
    ∃ fs', cleanHeader fs base (some base) ignore = .ok fs' ∧ fs' base = some [] := by
  unfold cleanHeader
  rw [h]
  refine ⟨_, rfl, ?_⟩
  simp [newName, lines]

/-- A file with a comment in the middle. -/
example : lines cs!"#a
1,2
#b
3,4" = [cs!"#a
", cs!"1,2
", cs!"#b
", cs!"3,4"] ∧
    (∀ fs : FS, fs cs!"f.csv" = some cs!"#a
1
#b
3" → ∃ fs', cleanHeader fs cs!"f.csv" none cs!"#" = .ok fs' ∧
      fs' cs!"f_no_header.csv" = some cs!"1
3" ∧ fs' cs!"f.csv" = some cs!"#a
1
#b
3") := by
  refine ⟨by decide +kernel, fun fs h => ?_⟩
  have hne : newName cs!"f.csv" none ≠ cs!"f.csv" := by decide +kernel
  have e : newName cs!"f.csv" none = cs!"f_no_header.csv" := by decide +kernel
  obtain ⟨fs', h1, h2, h3, _⟩ := (C228_clean_partial fs cs!"f.csv" none '#').2.1 _ _ h
    (linesOf_lines _) hne
  refine ⟨fs', h1, ?_, by rw [h3, h]⟩
  rw [← e, h2]
  decide +kernel

end Verif.Utils.Header
