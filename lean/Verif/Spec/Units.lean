import Verif.Model.Units

/-!
What it means that a file is fully cut into code units and that a unit says where its code is, without the scanning loops
of the parser. Lines count from 1, as in the units; rows of the syntax tree count from 0.
-/

namespace NextPlaid.Spec

open NextPlaid.Units

/-- Only white space. -/
def BlankLine (l : Text) : Prop := ∀ c ∈ l, isWs c = true

/-- Line `n` of the file exists and is not blank. -/
def TextAt (file : List Text) (n : Nat) (l : Text) : Prop := 1 ≤ n ∧ file[n - 1]? = some l ∧ ¬ BlankLine l

/-- Line `n` is in the range of the unit. -/
def Covers (u : CodeUnit) (n : Nat) : Prop := u.line ≤ n ∧ n ≤ u.endLine

/-- `l` is one of the lines of the text `code`. -/
def HasLine (code l : Text) : Prop :=
  ∃ pre post, code = pre ++ l ++ post ∧ (pre = [] ∨ pre.getLast? = some '\n') ∧ (post = [] ∨ post.head? = some '\n')

/-- The code of the unit is exactly the lines of its range. -/
def CodeIs (file : List Text) (u : CodeUnit) : Prop :=
  1 ≤ u.line ∧ u.line ≤ u.endLine ∧
  u.code = List.intercalate ['\n'] ((file.drop (u.line - 1)).take (u.endLine + 1 - u.line))

/-- `m` is `t` or a node below it, `k` levels down. -/
inductive WithinAt : Nat → Node → Node → Prop
  | self (t : Node) : WithinAt 0 t t
  | child {k : Nat} {t c m : Node} : c ∈ t.children → WithinAt k c m → WithinAt (k + 1) t m

/-- The rows of the syntax tree are rows of the file. A node may start just behind the last line (an empty node at the end
of a file that ends with a line feed), and it may end there. -/
def Fits (t : Node) (rows : Nat) : Prop :=
  ∀ k m, WithinAt k t m → m.info.startRow ≤ m.info.endRow ∧ m.info.startRow ≤ rows

/-- The tree has no node more than `d` levels down. -/
def NotDeeper (t : Node) (d : Nat) : Prop := ∀ k m, WithinAt k t m → k ≤ d

/-- Rows from `start` up to the node are attributes of the node with blank lines between them, and no further attribute
stands above `start`. -/
def StartsAt (lang : Lang) (file : List Text) (row start : Nat) : Prop :=
  start ≤ row ∧
  (∀ r, start ≤ r → r < row → BlankLine (file[r]?.getD []) ∨ isAttribute lang (trim (file[r]?.getD [])) = true) ∧
  (start < row → ¬ BlankLine (file[start]?.getD [])) ∧
  (∀ r, r < start → (∀ r', r < r' → r' < start → BlankLine (file[r']?.getD [])) → ¬ BlankLine (file[r]?.getD []) →
    isAttribute lang (trim (file[r]?.getD [])) = false)

/-- `m` is a node below `t` that a reader would call a separate definition: the way down leads through no constant of the
file's top level, and through a named class only by its body, which is then the parent of what it contains. With
`abstracts = false` the way does not lead into abstract types (interfaces, traits, enums) either. -/
inductive Reached (abstracts : Bool) : Option Text → Node → Option Text → Node → Prop
  | here (p : Option Text) (t : Node) : Reached abstracts p t p t
  | inner {p p' : Option Text} {t c m : Node} : c ∈ t.children →
      ¬ (t.info.kind = .class ∧ t.info.name ≠ none) → ¬ (t.info.kind = .constant ∧ p = none) →
      Reached abstracts p c p' m → Reached abstracts p t p' m
  | member {p p' : Option Text} {t b c m : Node} {name : Text} {i : Nat} : t.info.kind = .class →
      t.info.name = some name → (abstracts = false → t.info.abstr = false) → t.info.body = some i →
      t.children[i]? = some b → c ∈ b.children → Reached abstracts (some name) c p' m → Reached abstracts p t p' m

/-- The unit made for a declaration: its name, the lines from its attributes to its end. -/
def UnitFor (lang : Lang) (file : List Text) (m : Node) (u : CodeUnit) : Prop :=
  m.info.name = some u.name ∧ u.endLine = m.info.endRow + 1 ∧
  ∃ start, u.line = start + 1 ∧ StartsAt lang file m.info.startRow start

/-- A name in capitals: letters of ASCII in upper case, digits and underscores, with at least one letter. -/
def Capitals (name : Text) : Prop :=
  (∃ c ∈ name, ('A' ≤ c ∧ c ≤ 'Z') ∨ ('a' ≤ c ∧ c ≤ 'z')) ∧ ∀ c ∈ name, ('A' ≤ c ∧ c ≤ 'Z') ∨ ('0' ≤ c ∧ c ≤ '9') ∨ c = '_'

/-- The unit describes the definition `m` in the class `p` (or in none). -/
def UnitOf (lang : Lang) (file : List Text) (p : Option Text) (m : Node) (u : CodeUnit) : Prop :=
  UnitFor lang file m u ∧
  ((m.info.kind = .function ∧ u.calls = m.info.calls ∧ u.parent = p.or m.info.receiver ∧
      u.utype = if (p.or m.info.receiver).isSome then .method else .function) ∨
   (m.info.kind = .class ∧ u.calls = m.info.calls ∧ u.parent = none ∧ u.utype = .class) ∨
   (m.info.kind = .constant ∧ p = none ∧ (lang = .python → Capitals u.name) ∧ u.parent = none ∧
      u.utype = if lang = .typescript ∧ m.info.arrow = true then .function else .constant))

/-- Line `n` belongs to a declaration. -/
def Declared (units : List CodeUnit) (n : Nat) : Prop := ∃ u ∈ units, u.utype ≠ .rawCode ∧ Covers u n

/-- Line `n` has text that belongs to no declaration. -/
def Loose (file : List Text) (units : List CodeUnit) (n : Nat) : Prop :=
  (∃ l, TextAt file n l) ∧ ¬ Declared units n

/-- Every line of the code of the unit is a part of the line of the file with the number it should have, and the range of
the unit lies in the file. -/
def Located (file : List Text) (u : CodeUnit) : Prop :=
  1 ≤ u.line ∧ ∀ k l, (lines u.code)[k]? = some l →
    u.line + k ≤ u.endLine ∧ ∃ whole, file[u.line + k - 1]? = some whole ∧ l <:+: whole

/-- Line with row `i` is outside every script of the file: each script opened above it has been closed between, by a
later line than the one that opened it. -/
def Outside (opening closing : Text → Bool) (file : List Text) (i : Nat) : Prop :=
  ∀ (j : Nat) (l : Text), j < i → file[j]? = some l → opening l = true →
    ∃ (k : Nat) (l' : Text), j < k ∧ k < i ∧ file[k]? = some l' ∧ closing l' = true ∧ opening l' = false

/-- The code of the unit is a choice of lines of the file, in their order, and the unit starts at the first of them.
Nothing is said about where it ends. -/
def Selection (file : List Text) (rows : List Nat) (u : CodeUnit) : Prop :=
  rows.Pairwise (· < ·) ∧ (∀ r ∈ rows, r < file.length) ∧ (∃ r, rows.head? = some r ∧ u.line = r + 1) ∧
  u.code = List.intercalate ['\n'] (rows.map fun r => file[r]?.getD [])

/-- The names of the units that call `name`. -/
def CalledFrom (units : List CodeUnit) (name caller : Text) : Prop := ∃ u ∈ units, u.name = caller ∧ name ∈ u.calls

/-- The trees the parser returns have rows of the text they were made from. -/
def ParserFits (parse : Text → Option Node) : Prop := ∀ s t, parse s = some t → Fits t (lines s).length

/-- The trees the parser returns are no deeper than the limit. -/
def ParserShallow (parse : Text → Option Node) (maxDepth : Nat) : Prop := ∀ s t, parse s = some t → NotDeeper t maxDepth

/-- A line that closes a style block of a Svelte component and has nothing to do with scripts. -/
def closesStyle (l : Text) : Bool := closes styleTag l && !closes scriptTag l && !opensScript false l

/-- A script of the file on lines of its own: after the lines `before` a line that opens it, with nothing of the script on
it, then the lines `body`, then a line that closes it, with nothing of the script on it. -/
def ScriptAt (opening : Text → Bool) (file before body : List Text) : Prop :=
  ∃ o e after, file = before ++ o :: (body ++ e :: after) ∧ opening o = true ∧ inlineContent scriptTag o = [] ∧
    closes scriptTag e = true ∧ contentBefore scriptTag e = [] ∧ body ≠ [] ∧ ∀ l ∈ body, closes scriptTag l = false

/-- The unit made for a declaration in a script that starts after `offset` lines of the file. -/
def UnitIn (offset : Nat) (script : List Text) (m : Node) (u : CodeUnit) : Prop :=
  m.info.name = some u.name ∧ u.endLine = offset + m.info.endRow + 1 ∧
  ∃ start, u.line = offset + start + 1 ∧ StartsAt .typescript script m.info.startRow start

/-- Every definition of a script has its unit among `units`. -/
def ScriptCovered (offset : Nat) (script : List Text) (t : Node) (units : List CodeUnit) : Prop :=
  ∀ (p : Option Text) (m : Node), Reached true none t p m → m.info.name ≠ none →
    (m.info.kind = .function → ∃ u ∈ units, UnitIn offset script m u ∧ u.calls = m.info.calls ∧
      u.parent = p.or m.info.receiver ∧ u.utype = if (p.or m.info.receiver).isSome then .method else .function) ∧
    (m.info.kind = .class → ∃ u ∈ units, UnitIn offset script m u ∧ u.calls = m.info.calls ∧ u.utype = .class) ∧
    (m.info.kind = .constant → p = none → ∃ u ∈ units, UnitIn offset script m u ∧
      u.utype = if m.info.arrow = true then .function else .constant)

end NextPlaid.Spec
