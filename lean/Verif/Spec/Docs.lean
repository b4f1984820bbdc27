import Verif.Model.Docs

/-!
What the comment above a piece of code says.
-/

namespace NextPlaid.DocsSpec

open Units (Text isWs)
open Scan (Language)

/-- Nothing but white space. -/
def White (w : Text) : Prop := ∀ c ∈ w, isWs c = true

/-- `s` is `t` without the white space around it. -/
def Core (t s : Text) : Prop := ∃ a b, t = a ++ s ++ b ∧ White a ∧ White b ∧ (∀ c ∈ s.head?, isWs c = false) ∧
  ∀ c ∈ s.getLast?, isWs c = false

/-- The line begins with a mark, after white space. -/
def Marked (mark l : Text) : Prop := ∃ w r, White w ∧ l = w ++ mark ++ r

/-- The line ends with a mark, before white space. -/
def Ended (mark l : Text) : Prop := ∃ w r, White w ∧ l = r ++ mark ++ w

/-- What the line says after the mark; the mark may stand there several times. -/
def Content (mark l t : Text) : Prop := ∃ w k r, White w ∧ l = w ++ (List.replicate (k + 1) mark).flatten ++ r ∧ ¬ mark <+: r ∧ Core r t

/-- The lines directly above a row that are all of a kind, as many as there are. -/
structure Above (ok : Text → Prop) (lines : List Text) (row : Nat) (block : List Text) : Prop where
  inside : row ≤ lines.length
  split : ∃ before, lines.take row = before ++ block ∧ ∀ l ∈ before.getLast?, ¬ ok l
  all : ∀ l ∈ block, ok l

/-- What the lines of a block say, of those that are comments. -/
inductive Reads (doc : Text → Prop) (tells : Text → Text → Prop) : List Text → List Text → Prop where
  | nil : Reads doc tells [] []
  | text {l t : Text} {ls ts : List Text} (hl : doc l) (ht : tells l t) (h : Reads doc tells ls ts) : Reads doc tells (l :: ls) (t :: ts)
  | pass {l : Text} {ls ts : List Text} (hl : ¬ doc l) (h : Reads doc tells ls ts) : Reads doc tells (l :: ls) ts

/-- The docstring for these texts. -/
def docOf (ts : List Text) : Option Text := if ts = [] then none else some ([' '].intercalate ts)

/-- Comments with a mark on each line: the mark, and the beginnings of lines that may stand between. -/
def lineComments : List (Language × Text × List Text) :=
  [(.rust, "///".toList, ["//!".toList, "#[".toList]), (.swift, "///".toList, []), (.go, "//".toList, []), (.ruby, "#".toList, [])]

/-- A line that may belong to a comment with a mark on each line. -/
def LineOk (mark : Text) (skip : List Text) (l : Text) : Prop := Marked mark l ∨ White l ∨ ∃ s ∈ skip, Marked s l

/-- The languages with comments between `/*` and `*/` only. -/
def blockComments : List Language := [.javascript, .typescript, .vue, .svelte, .java, .csharp, .kotlin, .scala, .php]

/-- What a line says after the marks: a text without white space around it, that does not begin with a star or a slash and
does not end with the closing mark. -/
def Body (r t : Text) : Prop := Core r t ∧ (∀ c ∈ t.head?, c ≠ '*' ∧ c ≠ '/') ∧ ¬ "*/".toList <:+ t

/-- The first line of a comment: `/**` or `/*`, and a text. -/
def Opens (l t : Text) : Prop := ∃ w m r, White w ∧ (m = "/**".toList ∨ m = "/*".toList) ∧ l = w ++ m ++ r ∧ Body r t

/-- A further line, with or without a star. -/
def Goes (l t : Text) : Prop := ∃ w r, White w ∧ (l = w ++ '*' :: r ∨ l = r) ∧ Body r t

/-- A line with a text and the closing mark. -/
def Closes (line : Text → Text → Prop) (l t : Text) : Prop := t ≠ [] ∧ ∃ l' w, White w ∧ l = l' ++ "*/".toList ++ w ∧ line l' t

/-- A line with nothing but the closing mark, and perhaps further stars. -/
def BareClose (l : Text) : Prop := ∃ w k w', White w ∧ White w' ∧ l = w ++ List.replicate (k + 1) '*' ++ '/' :: w'

/-- Haskell and Lua: a line that is a comment, or blank. -/
def DashOk (l : Text) : Prop := White l ∨ Marked "--".toList l

/-- Haskell: a line that begins a comment. -/
def HaskellMark (l : Text) : Prop := Marked "-- |".toList l ∨ Marked "-- ^".toList l

/-- Haskell: what a line of a comment says. -/
def HaskellSays (l t : Text) : Prop :=
  (HaskellMark l ∧ ∃ w j k r, White w ∧ 0 < j + k ∧
    l = w ++ (List.replicate j "-- |".toList).flatten ++ (List.replicate k "-- ^".toList).flatten ++ r ∧
    ¬ "-- |".toList <+: (List.replicate k "-- ^".toList).flatten ++ r ∧ ¬ "-- ^".toList <+: r ∧ Core r t) ∨
  (¬ HaskellMark l ∧ Content "--".toList l t)

/-- Lua: what a line of a comment says. -/
def LuaSays (l t : Text) : Prop :=
  (Marked "---".toList l ∧ Content "---".toList l t) ∨ (¬ Marked "---".toList l ∧ Content "--".toList l t)

/-- OCaml: a text that is not a mark itself. -/
def MlBody (r t : Text) : Prop := Core r t ∧ ¬ "(*".toList <+: t ++ ['*'] ∧ ¬ "*)".toList <:+ t

/-- OCaml: the first line of a comment. -/
def MlOpens (l t : Text) : Prop := ∃ w r, White w ∧ l = w ++ "(**".toList ++ r ∧ MlBody r t

/-- OCaml: a line that ends with the closing mark. -/
def MlCloses (line : Text → Text → Prop) (l t : Text) : Prop := ∃ l' w, White w ∧ l = l' ++ "*)".toList ++ w ∧ line l' t

/-- Elixir: a line that documents. -/
def ElixirDoc (l : Text) : Prop := Marked "@doc".toList l ∨ Marked "@moduledoc".toList l

/-- Elixir: a line that may stand between the documentation and the function. -/
def ElixirPass (l : Text) : Prop := White l ∨ Marked ['#'] l ∨ (Marked ['@'] l ∧ (ElixirDoc l → '"' ∉ l))

/-- Python: the body of the function or class begins with a string. -/
def PyString (n e : Docs.DNode) : Prop := ∃ (pre post : List Docs.DNode) (body stmt : Docs.DNode) (more rest : List Docs.DNode),
  n.children = pre ++ body :: post ∧ (∀ c ∈ pre, c.info.field ≠ some "body") ∧ body.info.field = some "body" ∧
  body.children = stmt :: more ∧ stmt.info.kind = "expression_statement" ∧ stmt.children = e :: rest ∧ e.info.kind = "string"

/-- The languages whose comments are read. -/
def documented : List Language :=
  [.python, .rust, .javascript, .typescript, .vue, .svelte, .java, .csharp, .kotlin, .scala, .php, .haskell, .elixir, .swift, .go, .c, .cpp,
   .ruby, .ocaml, .lua]

end NextPlaid.DocsSpec
