import Verif.Model.TextFilter
import Verif.Spec.Regex

/-! The patterns that `colgrep -e` accepts, in both spellings, and what they mean (C67). -/

namespace NextPlaid.Spec

open NextPlaid.Regex
open NextPlaid.Ere (Chars Row)

/-- How often: `*`, `+`, `?`, `{lo}`, `{lo,}`, `{lo,hi}`; with `bre` the braces are written `\{` and `\}`. -/
inductive Often
  | star
  | plus
  | opt
  | count (bre : Bool) (lo : List Char)
  | range (bre : Bool) (lo hi : List Char)

/-- Patterns: nothing, a character, any character (`.`), start and end of a line, edge of a word (`\b`), one of or none of some characters,
one after the other, either, a group, repetition.  With `bre`, `|` is written `\|` and a group `\(` … `\)`. -/
inductive Pat
  | empty
  | lit (c : Char)
  | any
  | bol
  | eol
  | edge
  | set (neg : Bool) (cs : List Char)
  | cat (a b : Pat)
  | alt (bre : Bool) (a b : Pat)
  | group (bre : Bool) (a : Pat)
  | many (q : Often) (a : Pat)

/-- The characters that are written with a backslash when they stand for themselves. -/
def escaped : List Char := ['\\', '.', '+', '*', '?', '(', ')', '[', ']', '^', '$']

/-- `basic`: in the spelling of the pattern; otherwise in the extended one throughout. -/
def mark (basic bre : Bool) (c : Char) : List Char := if basic && bre then ['\\', c] else [c]

def Often.spell (basic : Bool) : Often → List Char
  | .star => ['*']
  | .plus => ['+']
  | .opt => ['?']
  | .count bre lo => mark basic bre '{' ++ lo ++ mark basic bre '}'
  | .range bre lo hi => mark basic bre '{' ++ lo ++ ',' :: hi ++ mark basic bre '}'

/-- The text of a pattern. -/
def Pat.spell (basic : Bool) : Pat → List Char
  | .empty => []
  | .lit c => if c ∈ escaped then ['\\', c] else [c]
  | .any => ['.']
  | .bol => ['^']
  | .eol => ['$']
  | .edge => ['\\', 'b']
  | .set neg cs => (if neg then ['[', '^'] else ['[']) ++ cs ++ [']']
  | .cat a b => a.spell basic ++ b.spell basic
  | .alt bre a b => a.spell basic ++ mark basic bre '|' ++ b.spell basic
  | .group bre a => mark basic bre '(' ++ a.spell basic ++ mark basic bre ')'
  | .many q a => a.spell basic ++ q.spell basic

/-- What the user types. -/
def Pat.write (p : Pat) : List Char := p.spell true

/-- The number that some digits stand for. -/
def decimal (ds : List Char) : Nat := ds.foldl (fun n c => 10 * n + (c.toNat - 48)) 0

/-- `n` times one after the other. -/
def Power (R : Place → Place → Prop) : Nat → Place → Place → Prop
  | 0, p, q => p = q
  | n + 1, p, q => ∃ m, R p m ∧ Power R n m q

/-- So often. -/
def Often.Means (R : Place → Place → Prop) (p q : Place) : Often → Prop
  | .star => ∃ n, Power R n p q
  | .plus => ∃ n, 1 ≤ n ∧ Power R n p q
  | .opt => ∃ n, n ≤ 1 ∧ Power R n p q
  | .count _ lo => Power R (decimal lo) p q
  | .range _ lo hi => ∃ n, decimal lo ≤ n ∧ (hi ≠ [] → n ≤ decimal hi) ∧ Power R n p q

/-- What a pattern matches, between two places of a text. -/
def Pat.Means (f : Flags) : Pat → Place → Place → Prop
  | .empty, p, q => p = q
  | .lit c, p, q => ∃ d ds, p.2 = d :: ds ∧ f.fold c = f.fold d ∧ q = (some d, ds)
  | .any, p, q => ∃ d ds, p.2 = d :: ds ∧ d ≠ '\n' ∧ q = (some d, ds)
  | .bol, p, q => p = q ∧ (p.1 = none ∨ (f.multi = true ∧ p.1 = some '\n'))
  | .eol, p, q => p = q ∧ (p.2 = [] ∨ (f.multi = true ∧ p.2.head? = some '\n'))
  | .edge, p, q => p = q ∧ f.wordy p.1 ≠ f.wordy p.2.head?
  | .set neg cs, p, q => ∃ d ds, p.2 = d :: ds ∧ ((∃ c ∈ cs, f.fold c = f.fold d) ↔ neg = false) ∧ q = (some d, ds)
  | .cat a b, p, q => ∃ m, Pat.Means f a p m ∧ Pat.Means f b m q
  | .alt _ a b, p, q => Pat.Means f a p q ∨ Pat.Means f b p q
  | .group _ a, p, q => Pat.Means f a p q
  | .many o a, p, q => o.Means (Pat.Means f a) p q

/-- The pattern matches somewhere in the text. -/
def Occurs (f : Flags) (p : Pat) (text : List Char) : Prop := ∃ u v q, text = u ++ v ∧ p.Means f (placeAfter none u v) q

/-- The pattern matches somewhere between two edges of words. -/
def OccursWord (f : Flags) (p : Pat) (text : List Char) : Prop := Occurs f (.cat .edge (.cat p .edge)) text

def Pat.isAlt : Pat → Bool
  | .alt _ _ _ => true
  | _ => false

/-- What can be repeated: a character, a set or a group. -/
def Pat.single : Pat → Bool
  | .lit _ => true
  | .any => true
  | .set _ _ => true
  | .group _ _ => true
  | _ => false

def Often.Legal : Often → Prop
  | .count _ lo => lo ≠ [] ∧ (∀ c ∈ lo, c.isDigit = true)
  | .range _ lo hi => lo ≠ [] ∧ (∀ c ∈ lo, c.isDigit = true) ∧ (∀ c ∈ hi, c.isDigit = true) ∧ (hi ≠ [] → decimal lo ≤ decimal hi)
  | _ => True

/-- The patterns the theorems are about.  `|` stands for itself only in sets; sets list characters other than `[ ] ^ - & ~ \`;
an alternative next to something else is in a group; a brace that stands for itself is not followed by a digit or a comma, and a
backslash that stands for itself not by a set. -/
def Pat.Legal : Pat → Prop
  | .lit c => c ≠ '|'
  | .set _ cs => cs ≠ [] ∧ ∀ c ∈ cs, c ∉ ['[', ']', '^', '-', '&', '~', '\\']
  | .cat a b => a.Legal ∧ b.Legal ∧ a.isAlt = false ∧ b.isAlt = false ∧
      ((a.spell false).getLast? = some '{' → ∀ c ∈ (b.spell false).head?, c.isDigit = false ∧ c ≠ ',') ∧
      ((a.spell false).getLast? = some '\\' → (b.spell false).head? ≠ some '[')
  | .alt _ a b => a.Legal ∧ b.Legal
  | .group _ a => a.Legal
  | .many q a => q.Legal ∧ a.Legal ∧ a.single = true
  | _ => True

/-- A parenthesis that stands for itself occurs. -/
def Pat.hasLit (c : Char) : Pat → Bool
  | .lit d => d = c
  | .cat a b => a.hasLit c || b.hasLit c
  | .alt _ a b => a.hasLit c || b.hasLit c
  | .group _ a => a.hasLit c
  | .many _ a => a.hasLit c
  | _ => false

/-- A group written `\(` … `\)` occurs. -/
def Pat.hasBre : Pat → Bool
  | .cat a b => a.hasBre || b.hasBre
  | .alt _ a b => a.hasBre || b.hasBre
  | .group bre a => bre || a.hasBre
  | .many _ a => a.hasBre
  | _ => false

/-- `\(` and `\)` are used in one sense: for groups, or as parentheses that stand for themselves, then of one kind only (see
`C67_parentheses_refuted`). -/
def Pat.OneSense (p : Pat) : Prop :=
  (p.hasLit '(' = false ∧ p.hasLit ')' = false) ∨ (p.hasBre = false ∧ (p.hasLit '(' = false ∨ p.hasLit ')' = false))

/-- Lines separately; letters equal as asked. -/
def searchFlags (ch : Chars) (caseSensitive multi : Bool) : Flags := ⟨multi, if caseSensitive then id else ch.fold, ch.isWord⟩

/-- The text itself occurs, or occurs between edges of words. -/
def Verbatim (ch : Chars) (word : Bool) (t code : List Char) : Prop :=
  if word then ∃ u v, code = u ++ t ++ v ∧ (u.getLast?.any ch.isWord ≠ (t ++ v).head?.any ch.isWord) ∧
    ((u ++ t).getLast?.any ch.isWord ≠ v.head?.any ch.isWord)
  else t <:+: code

end NextPlaid.Spec
