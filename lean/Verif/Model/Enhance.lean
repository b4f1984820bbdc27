import Verif.Model.TextQuery

/-!
Model of what `colgrep -e PATTERN QUERY` makes of the pattern for the search by meaning:
/repo/colgrep/src/commands/search.rs:233-357, used at 1508-1512.
-/

namespace NextPlaid.Enhance
open NextPlaid.Text

/-- Where `strip_regex_for_semantic` is in the pattern: outside, after a backslash, in brackets, after a backslash in
brackets, in braces. -/
inductive Mode
  | normal
  | esc
  | set (depth : Nat)
  | setEsc (depth : Nat)
  | brace
  deriving DecidableEq

/-- A blank, unless there is one or nothing before it: /repo/colgrep/src/commands/search.rs:258-260, 306-308. -/
def blank (result : List Char) : List Char := if result.getLast? = some ' ' ∨ result = [] then result else result ++ [' ']

/-- The escapes that stand for classes of characters: /repo/colgrep/src/commands/search.rs:255. -/
def classes : List Char := ['s', 'S', 'w', 'W', 'd', 'D', 'b', 'B', 'n', 'r', 't']

/-- One character of the pattern: /repo/colgrep/src/commands/search.rs:249-324. -/
def stripStep : Mode × List Char → Char → Mode × List Char
  | (.normal, r), c =>
    if c = '\\' then (.esc, r)
    else if c = '*' ∨ c = '+' ∨ c = '?' then (.normal, r)
    else if c = '^' ∨ c = '$' then (.normal, r)
    else if c = '[' then (.set 1, r)
    else if c = '(' ∨ c = ')' then (.normal, r)
    else if c = '|' then (.normal, blank r)
    else if c = '{' then (.brace, r)
    else if c = '.' then (.normal, r)
    else (.normal, r ++ [c])
  | (.esc, r), c => if c ∈ classes then (.normal, blank r) else (.normal, r ++ [c])
  | (.set d, r), c =>
    if c = '\\' then (.setEsc d, r)
    else if c = '[' then (.set (d + 1), r)
    else if c = ']' then (if d = 1 then (.normal, r) else (.set (d - 1), r))
    else (.set d, r)
  | (.setEsc d, r), _ => (.set d, r)
  | (.brace, r), c => if c = '}' then (.normal, r) else (.brace, r)

/-- `strip_regex_for_semantic`: /repo/colgrep/src/commands/search.rs:245-331. -/
def strip (white : Char → Bool) (pattern : List Char) : List Char :=
  joinWith [' '] (splitWhite white [] (pattern.foldl stripStep (.normal, [])).2)

/-- The tokens of the pattern that are not in the query: /repo/colgrep/src/commands/search.rs:345-353. -/
def newTokens (white : Char → Bool) (lower : List Char → List Char) (query pattern : List Char) : List (List Char) :=
  (splitWhite white [] pattern).filter fun t => !((splitWhite white [] query).map lower).contains (lower t)

/-- `merge_query_with_pattern`: /repo/colgrep/src/commands/search.rs:340-358. -/
def merge (white : Char → Bool) (lower : List Char → List Char) (query pattern : List Char) : List Char :=
  if pattern = [] then query
  else if newTokens white lower query pattern = [] then query
  else query ++ [' '] ++ joinWith [' '] (newTokens white lower query pattern)

/-- The query that is searched for by meaning: /repo/colgrep/src/commands/search.rs:1508-1512.  Fixed strings (`-F`) are
treated like patterns. -/
def enhanced (white : Char → Bool) (lower : List Char → List Char) (query : List Char) (pattern : Option (List Char)) : List Char :=
  match pattern with
  | none => query
  | some p => merge white lower query (strip white p)

end NextPlaid.Enhance
