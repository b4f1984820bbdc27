import Mathlib.Data.List.Basic

/-!
What file patterns mean (C51, C52).  A path is a list of characters, relative to the project, its components separated by `/`.
`*` stands for any characters within a component, `?` for one of them, `**` for any characters, `**/` for any number of directories.
-/

namespace NextPlaid.Spec

/-- The parts of a pattern. -/
inductive Tok
  | lit (c : Char)
  | one
  | run
  | deep
  | dirs
  deriving DecidableEq, Repr

/-- A pattern as its parts. -/
def tokens : List Char → List Tok
  | '*' :: '*' :: '/' :: cs => .dirs :: tokens cs
  | '*' :: '*' :: cs => .deep :: tokens cs
  | '*' :: cs => .run :: tokens cs
  | '?' :: cs => .one :: tokens cs
  | c :: cs => .lit c :: tokens cs
  | [] => []

/-- The parts describe the text. -/
def Describes : List Tok → List Char → Prop
  | [], s => s = []
  | .lit c :: ts, s => ∃ s', s = c :: s' ∧ Describes ts s'
  | .one :: ts, s => ∃ c s', s = c :: s' ∧ c ≠ '/' ∧ Describes ts s'
  | .run :: ts, s => ∃ u s', s = u ++ s' ∧ '/' ∉ u ∧ Describes ts s'
  | .deep :: ts, s => ∃ u s', s = u ++ s' ∧ Describes ts s'
  | .dirs :: ts, s => Describes ts s ∨ ∃ u s', s = u ++ '/' :: s' ∧ Describes ts s'

/-- `rest` is the path itself or what follows one of its `/`. -/
def EndOf (rest path : List Char) : Prop := rest = path ∨ ∃ dir, path = dir ++ '/' :: rest

/-- A file pattern selects a path: a pattern that starts with `/` describes the path from the root of the project, any other one
the path or its last components. -/
def Selects (pattern path : List Char) : Prop := match pattern with
  | '/' :: p => Describes (tokens p) path
  | p => ∃ rest, EndOf rest path ∧ Describes (tokens p) rest

/-- A directory pattern selects a directory: a pattern that starts with `/` or `*/` describes it from the root of the project, any
other one describes it or its last components. -/
def SelectsDir (pattern dir : List Char) : Prop := match pattern with
  | '/' :: p => Describes (tokens p) dir
  | '*' :: '/' :: p => Describes (tokens ('*' :: '/' :: p)) dir
  | p => ∃ rest, EndOf rest dir ∧ Describes (tokens p) rest

/-- A pattern without a `/` at its end. -/
def trimSlash (pattern : List Char) : List Char := if pattern.getLast? = some '/' then pattern.dropLast else pattern

/-- The path is in, or somewhere below, a directory that the pattern selects; a `/` at the end of the pattern does not matter. -/
def InDir (pattern path : List Char) : Prop := ∃ dir rest, path = dir ++ '/' :: rest ∧ SelectsDir (trimSlash pattern) dir

end NextPlaid.Spec
