import Verif.Model.Regex

/-!
Model of `colgrep`'s file patterns: `--exclude` and `--exclude-dir` become regular expressions (as text) that SQLite's `REGEXP` runs
against the column `file`; `--include` patterns are expanded and become a glob set.  Paths and patterns are lists of characters.
-/

namespace NextPlaid.Globs

open NextPlaid.Regex

/-- The characters a pattern's other characters are escaped among.  colgrep/src/index/mod.rs:3519 (and 3576). -/
def special : List Char := ['.', '+', '(', ')', '[', ']', '{', '}', '^', '$', '|', '\\']

/-- The loop over the characters of a pattern.  colgrep/src/index/mod.rs:3503-3525 in `glob_to_regex`, and 3560-3582, the same loop in
`dir_pattern_to_regex`. -/
def globBody : List Char → List Char
  | '*' :: '*' :: '/' :: cs => ['(', '.', '*', '/', ')', '?'] ++ globBody cs
  | '*' :: '*' :: cs => ['.', '*'] ++ globBody cs
  | '*' :: cs => ['[', '^', '/', ']', '*'] ++ globBody cs
  | '?' :: cs => '.' :: globBody cs
  | c :: cs => if c ∈ special then '\\' :: c :: globBody cs else c :: globBody cs
  | [] => []

def anyDir : List Char := ['*', '*', '/']

/-- `(^|.*/)`. -/
def anywhere : List Char := ['(', '^', '|', '.', '*', '/', ')']

/-- `glob_to_regex`.  colgrep/src/index/mod.rs:3494-3530. -/
def globToRegex (p : List Char) : List Char :=
  (if anyDir.isPrefixOf p || ['/'].isPrefixOf p then [] else anywhere) ++ globBody p ++ ['$']

/-- `is_glob_pattern`.  colgrep/src/index/mod.rs:3533-3535. -/
def isGlob (p : List Char) : Bool := p.contains '*' || p.contains '?' || p.contains '['

/-- `regex::escape` (crate `regex`, outside /repo). -/
def escape (p : List Char) : List Char := p.flatMap fun c => if c ∈ metas then ['\\', c] else [c]

/-- The head of the expression and the rest of the pattern.  colgrep/src/index/mod.rs:3547-3562. -/
def dirHead (p : List Char) : List Char × List Char :=
  if anyDir.isPrefixOf p then (anywhere, p.drop 3)
  else if ['*', '/'].isPrefixOf p then (['^', '[', '^', '/', ']', '*', '/'], p.drop 2)
  else if ['/'].isPrefixOf p then (['^'], p.drop 1)
  else (['(', '^', '|', '/', ')'], p)

/-- `dir_pattern_to_regex`.  colgrep/src/index/mod.rs:3541-3596. -/
def dirToRegex (p : List Char) : List Char :=
  if isGlob p then (dirHead p).1 ++ globBody (dirHead p).2 ++ ['/']
  else ['(', '^', '|', '/', ')'] ++ escape p ++ ['/']

/-- `join("|")`. -/
def joinBar : List (List Char) → List Char
  | [] => []
  | [r] => r
  | r :: rs => r ++ '|' :: joinBar rs

/-- A row of the index: document number and the file it comes from.  Other columns are left out. -/
structure Row where
  id : Int
  file : List Char
  deriving DecidableEq, Repr

/-- `where_condition_regexp(…, "NOT (file REGEXP ?)", [regex]).unwrap_or_default()`: an expression that is refused gives no row at
all.  next-plaid/src/filtering.rs:1969-2059, colgrep/src/index/mod.rs:3815-3821, 3844-3850.  Rows have a file (`file` is never NULL
in an index of `colgrep`). -/
def notMatching (rows : List Row) (regex : List Char) : List Int := match parse regex with
  | none => []
  | some r => (rows.filter fun row => !isMatch {} r row.file).map (·.id)

/-- `Searcher::filter_exclude_by_patterns`.  colgrep/src/index/mod.rs:3799-3824. -/
def filterExclude (rows : List Row) (patterns : List (List Char)) : List Int :=
  if patterns = [] then rows.map (·.id) else notMatching rows (joinBar (patterns.map globToRegex))

/-- `Searcher::filter_exclude_by_dirs`.  colgrep/src/index/mod.rs:3829-3853. -/
def filterExcludeDirs (rows : List Row) (dirs : List (List Char)) : List Int :=
  if dirs = [] then rows.map (·.id) else notMatching rows (joinBar (dirs.map dirToRegex))

end NextPlaid.Globs
