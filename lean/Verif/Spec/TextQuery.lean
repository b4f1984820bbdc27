/-!
Specification of the query language the sanitised text is handed to: the lexer of SQLite's FTS5
(`fts5ExprGetToken`), as documented in the FTS5 manual.  White space separates tokens; a string starts
and ends with a double quote and writes an inner quote twice; `( ) { } : , + * - ^` are operators;
the barewords `AND`, `OR` and `NOT` are operators; a NUL character ends the input; an unterminated
string or any other character is a syntax error.
-/

namespace NextPlaid.Spec

/-- FTS5 tokens. -/
inductive FTok where
  | phrase (w : List Char)
  | bare (w : List Char)
  | operator (w : List Char)
deriving DecidableEq, Repr

/-- The state of the lexer between two characters. -/
inductive LexState where
  | between
  | inString (w : List Char)
  | afterQuote (w : List Char)
  | inBare (w : List Char)

def ftsSpace (c : Char) : Bool := c == ' ' || c == '\t' || c == '\n' || c == '\r'
def ftsSpecial (c : Char) : Bool := ['(', ')', '{', '}', ':', ',', '+', '*', '-', '^'].contains c
/-- Bareword characters: ASCII letters and digits, underscore, SUB (26), and everything above ASCII. -/
def ftsBareChar (c : Char) : Bool := c.isAlphanum || c == '_' || c.toNat == 26 || decide (128 ≤ c.toNat)

def bareTok (w : List Char) : FTok :=
  if w = ['A', 'N', 'D'] ∨ w = ['O', 'R'] ∨ w = ['N', 'O', 'T'] then .operator w else .bare w

/-- A character outside strings and barewords. -/
def lexBetween (c : Char) : Option (List FTok × LexState) :=
  if ftsSpace c then some ([], .between)
  else if ftsSpecial c then some ([.operator [c]], .between)
  else if c == '"' then some ([], .inString [])
  else if ftsBareChar c then some ([], .inBare [c])
  else none

def lexStep (s : LexState) (c : Char) : Option (List FTok × LexState) :=
  match s with
  | .between => lexBetween c
  | .inString w => if c == '"' then some ([], .afterQuote w) else some ([], .inString (w ++ [c]))
  | .afterQuote w =>
    if c == '"' then some ([], .inString (w ++ ['"']))
    else (lexBetween c).map fun r => (.phrase w :: r.1, r.2)
  | .inBare w =>
    if ftsBareChar c then some ([], .inBare (w ++ [c])) else (lexBetween c).map fun r => (bareTok w :: r.1, r.2)

def lexEnd (s : LexState) : Option (List FTok) :=
  match s with
  | .between => some []
  | .inString _ => none
  | .afterQuote w => some [.phrase w]
  | .inBare w => some [bareTok w]

/-- The FTS5 lexer; `none` is a syntax error. -/
def ftsLexFrom (s : LexState) : List Char → Option (List FTok)
  | [] => lexEnd s
  | c :: cs =>
    if c.toNat = 0 then lexEnd s
    else
      match lexStep s c with
      | none => none
      | some (ts, s') => (ftsLexFrom s' cs).map fun r => ts ++ r

def ftsLex (q : List Char) : Option (List FTok) := ftsLexFrom .between q

/-- Put a token between the elements of a list. -/
def between (x : FTok) : List FTok → List FTok
  | [] => []
  | [a] => [a]
  | a :: b :: l => a :: x :: between x (b :: l)

/-- The words of a text: maximal runs of characters outside `sep`. -/
def IsWord (sep : Char → Bool) (text w : List Char) : Prop :=
  w ≠ [] ∧ (∀ c ∈ w, sep c = false) ∧
    ∃ a b, text = a ++ w ++ b ∧ (∀ c, a.getLast? = some c → sep c = true) ∧ (∀ c, b.head? = some c → sep c = true)

end NextPlaid.Spec
