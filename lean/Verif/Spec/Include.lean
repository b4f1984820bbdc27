import Verif.Spec.Globs

/-! What braces in file patterns mean (C52). -/

namespace NextPlaid.Spec

/-- A part of a pattern: text, or alternatives in braces. -/
inductive Seg
  | text (s : List Char)
  | group (alts : List (List Char))
  deriving DecidableEq, Repr

def Seg.render : Seg → List Char
  | .text s => s
  | .group alts => '{' :: ((alts.intersperse [',']).flatten ++ ['}'])

/-- The pattern as it is written. -/
def written (segs : List Seg) : List Char := segs.flatMap Seg.render

/-- The patterns it stands for: each choice of one alternative per group, in order. -/
def choices : List Seg → List (List Char)
  | [] => [[]]
  | .text s :: segs => (choices segs).map (s ++ ·)
  | .group alts :: segs => alts.flatMap fun a => (choices segs).map (a ++ ·)

/-- Text has no braces, alternatives have neither braces nor commas, and there is more to a group than one empty alternative. -/
def Seg.Ok : Seg → Prop
  | .text s => '{' ∉ s ∧ '}' ∉ s
  | .group alts => alts ≠ [] ∧ alts ≠ [[]] ∧ ∀ a ∈ alts, '{' ∉ a ∧ '}' ∉ a ∧ ',' ∉ a

/-- A path is selected by a pattern with braces: by one of the patterns it stands for. -/
def SelectsOne (segs : List Seg) (path : List Char) : Prop := ∃ p ∈ choices segs, Selects p path

/-- Text that stands for itself in every pattern. -/
def Plain (s : List Char) : Prop := ∀ c ∈ s, c ∉ ['*', '?', '[', ']', '{', '}', '\\']

/-- The usual forms of file patterns: `name`, `*name`, `dir/**/name`, `dir/**/*name`, where `*name` has no `/`. -/
inductive Usual : List Char → Prop
  | name (s : List Char) : Plain s → Usual s
  | ext (s : List Char) : Plain s → '/' ∉ s → Usual ('*' :: s)
  | below (d s : List Char) : Plain d → Plain s → Usual (d ++ '/' :: '*' :: '*' :: '/' :: s)
  | belowExt (d s : List Char) : Plain d → Plain s → '/' ∉ s → Usual (d ++ '/' :: '*' :: '*' :: '/' :: '*' :: s)

/-- The pattern without `**/` in front. -/
def withoutDirs (p : List Char) : List Char := if ['*', '*', '/'] <+: p then p.drop 3 else p

/-- Every `**/` of the pattern is a component of its own, and there are not two of them in a row. -/
def Orderly (p : List Char) : Prop :=
  (tokens p).head? ≠ some .dirs ∧ (tokens p).IsChain fun a b => b = .dirs → a = .lit '/'

end NextPlaid.Spec
