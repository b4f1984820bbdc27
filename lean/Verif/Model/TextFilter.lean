import Verif.Model.Display
import Verif.Model.Regex

/-!
Model of how `colgrep -e` chooses units by their text: `filter_by_text_pattern_with_options`, /repo/colgrep/src/index/mod.rs:3876-3986.

The engine of regular expressions is the model of its syntax in `Verif.Model.Regex`; expressions outside the modelled part count as
malformed.  The query `code REGEXP ?` is modelled as a scan of the rows (/repo/next-plaid/src/filtering.rs:1969-2059); a missing or
broken database is left out.
-/

namespace NextPlaid.Ere

open NextPlaid.Regex
open NextPlaid.Display (TextFlags wordy Engine)

/-- What the engine knows about characters: which count as equal with `(?i)`, and which make words. -/
structure Chars where
  fold : Char → Char
  isWord : Char → Bool

/-- The flags in front of an expression, and the rest.  `fancy_regex` syntax, only the prefixes that `colgrep` writes. -/
def inline (ch : Chars) : List Char → Flags × List Char
  | '(' :: '?' :: 'm' :: ')' :: t => (⟨true, id, ch.isWord⟩, t)
  | '(' :: '?' :: 'm' :: 'i' :: ')' :: t => (⟨true, ch.fold, ch.isWord⟩, t)
  | '(' :: '?' :: 'i' :: ')' :: t => (⟨false, ch.fold, ch.isWord⟩, t)
  | t => (⟨false, id, ch.isWord⟩, t)

/-- `fancy_regex::RegexBuilder::build` and `is_match`: /repo/next-plaid/src/filtering.rs:2002-2008, 2027. -/
def compile (ch : Chars) (src : List Char) : Option (List Char → Bool) :=
  (parse (inline ch src).2).map fun r text => isMatch (inline ch src).1 r text

/-- The same engine for the display. -/
def engine (ch : Chars) (lower : List Char → List Char) : Engine := ⟨compile ch, lower⟩

/-- A row: its id and the column `code`. -/
structure Row where
  id : Int
  code : List Char
  deriving DecidableEq, Repr

/-- `where_condition_regexp` with `code REGEXP ?`; `none` if the expression is malformed.
/repo/next-plaid/src/filtering.rs:1969-2059. -/
def matching (ch : Chars) (rows : List Row) (src : List Char) : Option (List Int) :=
  (compile ch src).map fun hit => (rows.filter fun r => hit r.code).map (·.id)

/-- `(?m)` or `(?mi)`: /repo/colgrep/src/index/mod.rs:3929. -/
def lineFlags (caseSensitive : Bool) : List Char := if caseSensitive then ['(', '?', 'm', ')'] else ['(', '?', 'm', 'i', ')']

/-- `regex_pattern`: /repo/colgrep/src/index/mod.rs:3930-3941. -/
def filterSource (f : TextFlags) (pattern : List Char) : List Char :=
  lineFlags f.caseSensitive ++
    if f.word then wordy (toEre pattern) else if f.extended then toEre pattern else Globs.escape pattern

/-- `fixed_pattern`: /repo/colgrep/src/index/mod.rs:3904-3909, 3944-3951. -/
def fixedSource (f : TextFlags) (pattern : List Char) : List Char :=
  if f.word then wordy (Globs.escape pattern) else Globs.escape pattern

/-- `filter_by_text_pattern_with_options`.  The union is read from a `HashSet`; `order` is the order in which it is read.
/repo/colgrep/src/index/mod.rs:3889-3986. -/
def textFilter (ch : Chars) (order : List Int → List Int) (rows : List Row) (f : TextFlags) (pattern : List Char) : Option (List Int) :=
  if pattern = [] then some []
  else if f.fixed then matching ch rows (fixedSource f pattern)
  else if filterSource f pattern = fixedSource f pattern then matching ch rows (filterSource f pattern)
  else match matching ch rows (filterSource f pattern) with
    | some ids => some (order (ids ++ ((matching ch rows (fixedSource f pattern)).getD []).filter (· ∉ ids)))
    | none => some ((matching ch rows (fixedSource f pattern)).getD [])

end NextPlaid.Ere
