import Verif.Model.Display
import Verif.Spec.Units

/-! What it means that `colgrep` prints a faithful excerpt of a file (C66). -/

namespace NextPlaid.Spec

open NextPlaid.Display
open NextPlaid.Units (Text lines trim)
open NextPlaid.Rank (CodeUnit)

/-- The numbers of the lines of code that are printed. -/
def numbers (out : List Out) : List Nat := out.filterMap fun
  | .code n _ => some n
  | _ => none

/-- A line of at most 400 characters is shown as it is; a longer one loses what follows and gets an ellipsis. -/
def Cut (l t : Text) : Prop := (l.length ≤ 400 ∧ t = l) ∨ (400 < l.length ∧ t = l.take 400 ++ "...".toList)

/-- What a reader sees of a text with escape sequences (from ESC to `m`); `seq`: inside such a sequence. -/
def visible (seq : Bool) : Text → Text
  | [] => []
  | c :: cs => if seq then visible (decide (c ≠ 'm')) cs
    else if c = Char.ofNat 27 then visible true cs else c :: visible false cs

/-- Every escape sequence ends. -/
def Complete (seq : Bool) : Text → Prop
  | [] => seq = false
  | c :: cs => if seq then Complete (decide (c ≠ 'm')) cs else Complete (decide (c = Char.ofNat 27)) cs

/-- The highlighter only adds escape sequences: one text per line, and a line without escape characters reads as before. -/
def OnlyColours (paint : List Text → List Text) : Prop :=
  ∀ ls, (paint ls).length = ls.length ∧ ∀ (i : Nat) (l p : Text), ls[i]? = some l → Char.ofNat 27 ∉ l → (paint ls)[i]? = some p →
    visible false p = l ∧ Complete false p

/-- The text printed for the line `l`: the line itself or cut, with or without colours. -/
def Reads (paint : Option (List Text → List Text)) (l t : Text) : Prop := match paint with
  | none => Cut l t
  | some _ => Char.ofNat 27 ∉ l → Cut l (visible false t)

/-- The output is an excerpt of the lines `a` to `z` of the file: lines with their own numbers, in order, no line left out silently
(neighbours in the output are neighbours in the file, unless `...` stands between them or after them), and `...` only where lines are
left out, or after the first two lines (`C66_dots_refuted`). -/
structure Excerpt (paint : Option (List Text → List Text)) (file : List Text) (a z : Nat) (out : List Out) : Prop where
  only : ∀ x ∈ out, x = .dots ∨ ∃ n l t, x = .code n t ∧ a ≤ n ∧ n ≤ z ∧ file[n - 1]? = some l ∧ Reads paint l t
  ascending : (numbers out).Pairwise (· < ·)
  noGap : out.IsChain fun x y => ∀ n t n' t', x = .code n t → y = .code n' t' → n' = n + 1
  starts : ∀ n ∈ (numbers out).head?, n = a
  ends : ∀ x ∈ out.getLast?, ∀ n t, x = .code n t → n = z
  dotted : ∀ n t n' t', [.code n t, .dots, .code n' t'] <:+: out → n + 1 < n' ∨ n ≤ a + 1
  dottedEnd : ∀ n t, [.code n t, .dots] <:+ out → n < z

/-- A text is in a line, exactly or whatever the case. -/
def InLine (e : Engine) (caseSensitive : Bool) (p l : Text) : Prop :=
  if caseSensitive then p <:+: l else e.lower p <:+: e.lower l

/-- The pattern matches the line: as a regular expression if one is made of it and it is well formed (`source`, see C67), otherwise
as a text. -/
def LineMatches (e : Engine) (f : TextFlags) (p l : Text) : Prop := match (source f p).bind e.compile with
  | some hit => hit l = true
  | none => InLine e f.caseSensitive p l

/-- The lines of `ls` that count as matching: those the pattern matches; if it is a regular expression that matches none of them, those
that contain its source as a text. -/
def Marked (e : Engine) (f : TextFlags) (p : Text) (ls : List Text) (l : Text) : Prop := LineMatches e f p l ∨
  ((∀ l' ∈ ls, ¬ LineMatches e f p l') ∧ ∃ src hit, source f p = some src ∧ e.compile src = some hit ∧ InLine e f.caseSensitive src l)

/-- The file can be read and the unit is the lines of its range: nothing was merged into it, and the file is as it was indexed. -/
def Current (w : World) (u : CodeUnit) (file : List Text) : Prop :=
  (∃ content, w.read u.file = some content ∧ file = lines content) ∧ 1 ≤ u.line ∧ u.line ≤ u.endLine ∧ u.endLine ≤ file.length ∧
  lines (w.text u.id) = (file.drop (u.line - 1)).take (u.endLine + 1 - u.line)

/-- The numbers stay far below the largest machine integer. -/
def Moderate (o : Options) (file : List Text) : Prop := file.length + o.contextLines + 250 < 2 ^ 64

/-- `k` is within `half` lines of line `n`. -/
def Near (half n k : Nat) : Prop := k ≤ n + half ∧ n ≤ k + half

/-- Shown are the first line `a`, the lines `n` with the property and those within `half` lines of them, and nothing else but possibly the
second line. -/
def ShowsAround (half a z : Nat) (P : Nat → Prop) (out : List Out) : Prop := a ∈ numbers out ∧
  (∀ k, a ≤ k → k ≤ z → (∃ n, P n ∧ Near half n k) → k ∈ numbers out) ∧
  ∀ k ∈ numbers out, k = a ∨ k = a + 1 ∨ ∃ n, P n ∧ Near half n k

/-- Shown are the first lines: as many as are asked for, or with `-c` all of a unit of code and 250 of a document. -/
def ShowsFirst (o : Options) (u : CodeUnit) (a z : Nat) (out : List Out) : Prop := ∀ k, k ∈ numbers out ↔ a ≤ k ∧ k ≤ z ∧
  (o.showContent = false → k < a + o.contextLines) ∧ (o.showContent = true → u.isText = true → k < a + 250)

/-- Line `n` of the file is a line of the unit that counts as matching the pattern. -/
def UnitMatch (e : Engine) (w : World) (f : TextFlags) (p : Text) (u : CodeUnit) (file : List Text) (n : Nat) : Prop :=
  u.line ≤ n ∧ n ≤ u.endLine ∧ ∃ l, file[n - 1]? = some l ∧ Marked e f p (lines (w.text u.id)) l

/-- Line `n` of the file is a line of the unit that contains the query. -/
def UnitQuery (e : Engine) (o : Options) (u : CodeUnit) (file : List Text) (n : Nat) : Prop :=
  u.line ≤ n ∧ n ≤ u.endLine ∧ ∃ l, file[n - 1]? = some l ∧ InLine e o.flags.caseSensitive o.query l

/-- The members of `l`, each once, in the order in which they first occur. -/
def FirstOnly {A : Type} [BEq A] (l l' : List A) : Prop :=
  (∀ x, x ∈ l' ↔ x ∈ l) ∧ l'.Pairwise fun x y => l.idxOf x < l.idxOf y

/-- The text of a line in compact output: without the white space around it, at most 120 characters. -/
def Short (l t : Text) : Prop :=
  ((trim l).length ≤ 120 ∧ t = trim l) ∨ (120 < (trim l).length ∧ t = (trim l).take 120 ++ "...".toList)

/-- Exactly the lines of a file with a property, in order, under the name of the file. -/
structure HitLines (path : Text) (ls : List Text) (P : Text → Prop) (out : List Out) : Prop where
  only : ∀ x ∈ out, ∃ n l t, x = .hitLine path n t ∧ 1 ≤ n ∧ ls[n - 1]? = some l ∧ P l ∧ Short l t
  all : ∀ n l, 1 ≤ n → ls[n - 1]? = some l → P l → ∃ t, .hitLine path n t ∈ out
  ascending : out.Pairwise fun x y => ∀ p n t p' n' t', x = .hitLine p n t → y = .hitLine p' n' t' → n < n'

/-- Results by file: the files in the order of their best results, each with its results from top to bottom. -/
def ByFile (us : List CodeUnit) (groups : List (Text × List CodeUnit)) : Prop :=
  FirstOnly (us.map (·.file)) (groups.map (·.1)) ∧
  ∀ g ∈ groups, g.2.Perm (us.filter fun u => u.file = g.1) ∧ g.2.Pairwise fun a b => a.line ≤ b.line

end NextPlaid.Spec
