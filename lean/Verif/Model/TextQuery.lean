import Verif.Model.Basic

/-!
Model of the keyword-query sanitisers and of the identifier tokenizer,
/repo/next-plaid/src/text_search.rs.  Strings are lists of characters.

The identifier functions of the code walk over UTF-8 bytes; every byte of a non-ASCII character is
outside the ASCII classes they test, so walking over characters visits the same boundaries.
-/

namespace NextPlaid.Text

/-- Unicode tables of the Rust standard library: `char::is_whitespace`, `char::is_alphanumeric`,
`str::to_uppercase`, `str::to_lowercase` on ASCII is fixed below. -/
structure Chars where
  white : Char → Bool
  alnum : Char → Bool
  upper : List Char → List Char

/-- `str::split_whitespace`: the maximal runs of non-white characters.  `cur` is the current run. -/
def splitWhite (white : Char → Bool) (cur : List Char) : List Char → List (List Char)
  | [] => if cur = [] then [] else [cur]
  | c :: cs =>
    if white c then (if cur = [] then splitWhite white [] cs else cur :: splitWhite white [] cs)
    else splitWhite white (cur ++ [c]) cs

/-- `str::trim_matches` with a character predicate. -/
def trimMatches (p : Char → Bool) (w : List Char) : List Char :=
  ((w.dropWhile p).reverse.dropWhile p).reverse

/-- `str::replace('"', "\"\"")`. -/
def escapeQuotes (w : List Char) : List Char := w.flatMap fun c => if c = '"' then ['"', '"'] else [c]

/-- `format!("\"{}\"", escaped)`. -/
def quoteWord (w : List Char) : List Char := '"' :: escapeQuotes w ++ ['"']

/-- `operators`: /repo/next-plaid/src/text_search.rs:950. -/
def operators : List (List Char) := [['A', 'N', 'D'], ['O', 'R'], ['N', 'O', 'T'], ['N', 'E', 'A', 'R']]

/-- The closure of `filter_map`, before quoting: lines 953-963. -/
def cleanWord (u : Chars) (word : List Char) : Option (List Char) :=
  let trimmed := trimMatches (fun c => !u.alnum c) word
  if trimmed = [] then none
  else if operators.contains (u.upper trimmed) then none
  else some trimmed

/-- `slice::join`. -/
def joinWith (sep : List Char) : List (List Char) → List Char
  | [] => []
  | [w] => w
  | w :: w' :: ws => w ++ sep ++ joinWith sep (w' :: ws)

/-- The words kept by `sanitize_fts5_query`. -/
def keptWords (u : Chars) (query : List Char) : List (List Char) :=
  (splitWhite u.white [] query).filterMap (cleanWord u)

/-- `sanitize_fts5_query`: /repo/next-plaid/src/text_search.rs:949-969. -/
def sanitize (u : Chars) (query : List Char) : List Char :=
  joinWith [' '] ((keptWords u query).map quoteWord)

/-! ### Identifier tokenizer -/

def isUpperA (c : Char) : Bool := c.isUpper
def isLowerA (c : Char) : Bool := c.isLower
def isDigitA (c : Char) : Bool := c.isDigit
def isAlphaA (c : Char) : Bool := c.isAlpha

/-- `to_lowercase` on an ASCII string. -/
def lowerA (w : List Char) : List Char := w.map Char.toLower

/-- The upper-case branch of `camel_split`, lines 179-203.  `run` is the maximal run of upper-case
letters at the current position (its first letter is there), `rest` what follows.  Returns the part and
the remaining input. -/
def acronym (run rest : List Char) : List Char × List Char :=
  if (rest.head?.any isLowerA) && decide (1 < run.length) then
    (lowerA run.dropLast, run.drop (run.length - 1) ++ rest)
  else (lowerA (run ++ rest.takeWhile isLowerA), rest.dropWhile isLowerA)

/-- The loop of `camel_split`: /repo/next-plaid/src/text_search.rs:155-213.  Every turn consumes at least
one character; `fuel` is the number of turns allowed. -/
def camelLoop : Nat → List Char → List (List Char)
  | 0, _ => []
  | _, [] => []
  | fuel + 1, c :: cs =>
    if isDigitA c then (c :: cs).takeWhile isDigitA :: camelLoop fuel ((c :: cs).dropWhile isDigitA)
    else if !isAlphaA c then camelLoop fuel cs
    else if isUpperA c then
      (acronym ((c :: cs).takeWhile isUpperA) ((c :: cs).dropWhile isUpperA)).1 ::
        camelLoop fuel (acronym ((c :: cs).takeWhile isUpperA) ((c :: cs).dropWhile isUpperA)).2
    else lowerA ((c :: cs).takeWhile isLowerA) :: camelLoop fuel ((c :: cs).dropWhile isLowerA)

/-- `camel_split`: /repo/next-plaid/src/text_search.rs:155-213. -/
def camelSplit (token : List Char) : List (List Char) := camelLoop token.length token

/-- `str::split('_')`. -/
def splitUnderscore (cur : List Char) : List Char → List (List Char)
  | [] => [cur]
  | c :: cs => if c = '_' then cur :: splitUnderscore [] cs else splitUnderscore (cur ++ [c]) cs

/-- `parts` of `split_identifier`: lines 120-128. -/
def identParts (token : List Char) : List (List Char) :=
  if token.contains '_' then (splitUnderscore [] (lowerA token)).filter (fun p => p != [])
  else camelSplit token

/-- `parts.windows(2)` joined by an underscore: lines 139-141. -/
def bigrams : List (List Char) → List (List Char)
  | a :: b :: l => (a ++ '_' :: b) :: bigrams (b :: l)
  | _ => []

/-- `split_identifier`: /repo/next-plaid/src/text_search.rs:118-147. -/
def splitIdentifier (token : List Char) : List (List Char) :=
  if 2 ≤ (identParts token).length then lowerA token :: identParts token ++ bigrams (identParts token)
  else [lowerA token]

def identHead (c : Char) : Bool := isAlphaA c || c == '_'
def identTail (c : Char) : Bool := isAlphaA c || isDigitA c || c == '_'

/-- The identifiers found by the loop of `tokenize_identifiers`: lines 220-247.  `cur` is the identifier
being read. -/
def identLoop (cur : List Char) : List Char → List (List Char)
  | [] => if cur = [] then [] else [cur]
  | c :: cs =>
    if cur = [] then (if identHead c then identLoop [c] cs else identLoop [] cs)
    else if identTail c then identLoop (cur ++ [c]) cs
    else cur :: identLoop [] cs

/-- `tokenize_identifiers`: /repo/next-plaid/src/text_search.rs:220-247. -/
def tokenizeIdentifiers (text : List Char) : List (List Char) := (identLoop [] text).flatMap splitIdentifier

/-- The loop of `sanitize_fts5_query_or`: first occurrences of non-empty tokens. -/
def firstSeen (seen : List (List Char)) : List (List Char) → List (List Char)
  | [] => []
  | t :: ts => if t = [] ∨ t ∈ seen then firstSeen seen ts else t :: firstSeen (t :: seen) ts

/-- `sanitize_fts5_query_or`: /repo/next-plaid/src/text_search.rs:982-993. -/
def sanitizeOr (query : List Char) : List Char :=
  joinWith [' ', 'O', 'R', ' '] ((firstSeen [] (tokenizeIdentifiers query)).map quoteWord)

end NextPlaid.Text
