import Verif.Model.Enhance

/-!
Specification for the query of `colgrep -e`: the words of a text, patterns and their literal text.
-/

namespace NextPlaid.Spec

/-- The words of a text, in order: they have no white characters, and are separated by some. -/
inductive Laid (white : Char → Bool) : List (List Char) → List Char → Prop
  | none (gap : List Char) (hg : ∀ c ∈ gap, white c = true) : Laid white [] gap
  | word (gap w rest : List Char) (ws : List (List Char)) (hg : ∀ c ∈ gap, white c = true) (hw : w ≠ []) (hc : ∀ c ∈ w, white c = false)
      (hr : rest = [] ∨ ∃ c t, rest = c :: t ∧ white c = true) (h : Laid white ws rest) : Laid white (w :: ws) (gap ++ w ++ rest)

/-- Patterns in the extended syntax.  `cls` is `\s`, `\w`, `\b` and so on; `set` is a set of characters in brackets;
`count` is a repetition in braces. -/
inductive Rx
  | empty
  | lit (c : Char)
  | cls (c : Char)
  | any
  | bol
  | eol
  | set (cs : List Char)
  | cat (a b : Rx)
  | alt (a b : Rx)
  | group (a : Rx)
  | star (a : Rx)
  | plus (a : Rx)
  | opt (a : Rx)
  | count (a : Rx) (bounds : List Char)

/-- The characters that are written with a backslash when they stand for themselves. -/
def special : List Char := ['\\', '.', '+', '*', '?', '(', ')', '[', ']', '{', '}', '^', '$', '|']

/-- What the user types. -/
def Rx.spell : Rx → List Char
  | .empty => []
  | .lit c => if c ∈ special then ['\\', c] else [c]
  | .cls c => ['\\', c]
  | .any => ['.']
  | .bol => ['^']
  | .eol => ['$']
  | .set cs => '[' :: (cs ++ [']'])
  | .cat a b => a.spell ++ b.spell
  | .alt a b => a.spell ++ '|' :: b.spell
  | .group a => '(' :: (a.spell ++ [')'])
  | .star a => a.spell ++ ['*']
  | .plus a => a.spell ++ ['+']
  | .opt a => a.spell ++ ['?']
  | .count a n => a.spell ++ '{' :: (n ++ ['}'])

/-- The classes are the usual ones, the sets have no brackets and backslashes in them, bounds no braces. -/
def Rx.Plain : Rx → Prop
  | .cls c => c ∈ ['s', 'S', 'w', 'W', 'd', 'D', 'b', 'B', 'n', 'r', 't']
  | .set cs => ∀ c ∈ cs, c ≠ '[' ∧ c ≠ ']' ∧ c ≠ '\\'
  | .cat a b => a.Plain ∧ b.Plain
  | .alt a b => a.Plain ∧ b.Plain
  | .group a => a.Plain
  | .star a => a.Plain
  | .plus a => a.Plain
  | .opt a => a.Plain
  | .count a n => a.Plain ∧ ∀ c ∈ n, c ≠ '}'
  | _ => True

/-- The literal text of a pattern: all that stands for itself, with blanks for classes and between alternatives. -/
def Rx.text : Rx → List Char
  | .lit c => [c]
  | .cls _ => [' ']
  | .cat a b => a.text ++ b.text
  | .alt a b => a.text ++ ' ' :: b.text
  | .group a => a.text
  | .star a => a.text
  | .plus a => a.text
  | .opt a => a.text
  | .count a _ => a.text
  | _ => []

end NextPlaid.Spec
