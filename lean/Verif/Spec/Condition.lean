import Verif.Model.Condition

/-!
What a filter condition may be, stated without the validator: how a text is spelled as words and signs, and the
documented grammar (the comment at filtering.rs:563-583) as a relation between signs and boolean expressions.
Only the type of signs and the character tables are taken from the model.
-/

namespace NextPlaid.Spec
open NextPlaid.Condition

/-- The text of a sign that is not a word. -/
inductive Sign : Token → List Char → Prop where
  | placeholder : Sign .placeholder ['?']
  | lparen : Sign .lparen ['(']
  | rparen : Sign .rparen [')']
  | comma : Sign .comma [',']
  | eq : Sign .eq ['=']
  | ne : Sign .ne ['!', '=']
  | ne' : Sign .ne ['<', '>']
  | le : Sign .le ['<', '=']
  | ge : Sign .ge ['>', '=']

/-- The keywords. -/
inductive Keyword : Token → List Char → Prop where
  | and : Keyword .and ['A', 'N', 'D']
  | or : Keyword .or ['O', 'R']
  | not : Keyword .not ['N', 'O', 'T']
  | is : Keyword .is ['I', 'S']
  | null : Keyword .null ['N', 'U', 'L', 'L']
  | like : Keyword .like ['L', 'I', 'K', 'E']
  | regexp : Keyword .regexp ['R', 'E', 'G', 'E', 'X', 'P']
  | between : Keyword .between ['B', 'E', 'T', 'W', 'E', 'E', 'N']
  | isIn : Keyword .isIn ['I', 'N']

/-- A word is one or more letters, digits and underscores that do not start with a digit. -/
def IsPlainWord (U : Uni) (w : List Char) : Prop :=
  (∃ c cs, w = c :: cs ∧ (U.isAlpha c = true ∨ c = '_')) ∧ ∀ c ∈ w, U.isAlnum c = true ∨ c = '_'

/-- `Spells U text signs`: the text consists of these signs, with white space around them. -/
inductive Spells (U : Uni) : List Char → List Token → Prop where
  | nil : Spells U [] []
  | space {c cs ts} : U.isSpace c = true → Spells U cs ts → Spells U (c :: cs) ts
  | sign {t s cs ts} : Sign t s → Spells U cs ts → Spells U (s ++ cs) (t :: ts)
  /-- `<` is the sign when neither `=` nor `>` follows. -/
  | lt {cs ts} : cs.head? ≠ some '=' → cs.head? ≠ some '>' → Spells U cs ts → Spells U ('<' :: cs) (.lt :: ts)
  | gt {cs ts} : cs.head? ≠ some '=' → Spells U cs ts → Spells U ('>' :: cs) (.gt :: ts)
  /-- A keyword, in capitals or not, up to a character that does not continue the word. -/
  | keyword {t k w cs ts} : Keyword t k → IsPlainWord U w → U.upper w = k →
      (∀ c, cs.head? = some c → U.isAlnum c = false ∧ c ≠ '_') → Spells U cs ts → Spells U (w ++ cs) (t :: ts)
  /-- Any other word names a column. -/
  | column {w cs ts} : IsPlainWord U w → (∀ t k, Keyword t k → U.upper w ≠ k) →
      (∀ c, cs.head? = some c → U.isAlnum c = false ∧ c ≠ '_') → Spells U cs ts → Spells U (w ++ cs) (.ident w :: ts)
  | quoted {w cs ts} : '"' ∉ w → Spells U cs ts → Spells U ('"' :: (w ++ '"' :: cs)) (.ident w :: ts)

/-- The six comparisons. -/
inductive Cmp where
  | eq | ne | lt | le | gt | ge

def Cmp.token : Cmp → Token
  | .eq => .eq
  | .ne => .ne
  | .lt => .lt
  | .le => .le
  | .gt => .gt
  | .ge => .ge

/-- A test of one column; `neg` says that `NOT` is written. Values are always placeholders. -/
inductive Test where
  | compare (col : List Char) (op : Cmp)
  | like (neg : Bool) (col : List Char)
  | regexp (neg : Bool) (col : List Char)
  | isNull (neg : Bool) (col : List Char)
  | between (neg : Bool) (col : List Char)
  /-- `IN` with one placeholder and `more` further ones -/
  | isIn (neg : Bool) (col : List Char) (more : Nat)

def Test.column : Test → List Char
  | .compare c _ => c
  | .like _ c => c
  | .regexp _ c => c
  | .isNull _ c => c
  | .between _ c => c
  | .isIn _ c _ => c

def optNot (neg : Bool) : List Token := if neg then [.not] else []

/-- The signs of a test. -/
def Test.signs : Test → List Token
  | .compare c op => [.ident c, op.token, .placeholder]
  | .like neg c => .ident c :: optNot neg ++ [.like, .placeholder]
  | .regexp neg c => .ident c :: optNot neg ++ [.regexp, .placeholder]
  | .isNull neg c => [.ident c, .is] ++ optNot neg ++ [.null]
  | .between neg c => .ident c :: optNot neg ++ [.between, .placeholder, .and, .placeholder]
  | .isIn neg c more => .ident c :: optNot neg ++ [.isIn, .lparen, .placeholder] ++
      (List.replicate more [Token.comma, .placeholder]).flatten ++ [.rparen]

/-- A boolean combination of tests. -/
inductive Cond where
  | test (t : Test)
  | neg (c : Cond)
  | conj (a b : Cond)
  | disj (a b : Cond)

/-- The columns a condition names. -/
def Cond.columns : Cond → List (List Char)
  | .test t => [t.column]
  | .neg c => c.columns
  | .conj a b => a.columns ++ b.columns
  | .disj a b => a.columns ++ b.columns

/-- The four levels of the documented grammar. -/
inductive Level where
  | expr | andExpr | unary | primary
  deriving DecidableEq

/-- The documented grammar: which signs say which condition, at which level. -/
inductive Says : Level → List Token → Cond → Prop where
  | single {ts c} : Says .andExpr ts c → Says .expr ts c
  | or {ts us c d} : Says .andExpr ts c → Says .expr us d → Says .expr (ts ++ Token.or :: us) (.disj c d)
  | one {ts c} : Says .unary ts c → Says .andExpr ts c
  | and {ts us c d} : Says .unary ts c → Says .andExpr us d → Says .andExpr (ts ++ Token.and :: us) (.conj c d)
  | plain {ts c} : Says .primary ts c → Says .unary ts c
  | not {ts c} : Says .primary ts c → Says .unary (Token.not :: ts) (.neg c)
  | paren {ts c} : Says .expr ts c → Says .primary (Token.lparen :: (ts ++ [Token.rparen])) c
  | test (t : Test) : Says .primary t.signs (.test t)

/-- The name is, ignoring case, one of the columns. -/
def Named (U : Uni) (cols : List (List Char)) (name : List Char) : Prop :=
  ∃ c ∈ cols, U.lower c = U.lower name

/-- The text is a condition of the grammar over the given columns. -/
def WellFormedCondition (U : Uni) (cols : List (List Char)) (text : List Char) (c : Cond) : Prop :=
  ∃ signs, Spells U text signs ∧ Says .expr signs c ∧ ∀ n ∈ c.columns, Named U cols n

/-- What is assumed of the tables: white space, letters and the signs exclude each other, and letters are among
the letters and digits. -/
structure _root_.NextPlaid.Condition.Uni.Lawful (U : Uni) : Prop where
  alpha_alnum : ∀ c, U.isAlpha c = true → U.isAlnum c = true
  space_alpha : ∀ c, U.isSpace c = true → U.isAlpha c = false
  sign_alpha : ∀ c ∈ ['?', '(', ')', ',', '=', '!', '<', '>', '"'], U.isAlpha c = false
  sign_space : ∀ c ∈ ['?', '(', ')', ',', '=', '!', '<', '>', '"', '_'], U.isSpace c = false

/-- The text contains the given characters one after the other. -/
def Contains (text part : List Char) : Prop := ∃ a b, text = a ++ part ++ b

/-- The text contains the word, with no letter, digit or underscore before or after it. -/
def HasWord (U : Uni) (text word : List Char) : Prop :=
  ∃ a b, text = a ++ word ++ b ∧ (∀ c, a.getLast? = some c → U.reWord c = false) ∧
    (∀ c, b.head? = some c → U.reWord c = false)

/-- The words that may not occur in a condition. -/
def reservedWords : List (List Char) :=
  [['S', 'E', 'L', 'E', 'C', 'T'], ['U', 'N', 'I', 'O', 'N'], ['I', 'N', 'S', 'E', 'R', 'T'],
    ['U', 'P', 'D', 'A', 'T', 'E'], ['D', 'E', 'L', 'E', 'T', 'E'], ['D', 'R', 'O', 'P'],
    ['C', 'R', 'E', 'A', 'T', 'E'], ['A', 'L', 'T', 'E', 'R'], ['T', 'R', 'U', 'N', 'C', 'A', 'T', 'E'],
    ['E', 'X', 'E', 'C'], ['E', 'X', 'E', 'C', 'U', 'T', 'E'], ['G', 'R', 'A', 'N', 'T'],
    ['R', 'E', 'V', 'O', 'K', 'E']]

/-- A number, an equals sign and a number, with white space around them. -/
def NumericIdiom (U : Uni) (text : List Char) : Prop :=
  ∃ l a s t b r, text = l ++ a ++ s ++ '=' :: t ++ b ++ r ∧ a ≠ [] ∧ b ≠ [] ∧
    (∀ c ∈ a ++ b, U.reDigit c = true) ∧ (∀ c ∈ s ++ t, U.reSpace c = true) ∧ (∀ c ∈ l ++ r, U.isSpace c = true)

/-- Only ASCII characters. -/
def IsAscii (s : List Char) : Prop := ∀ c ∈ s, c.toNat < 128

/-- The tables on ASCII characters. -/
structure _root_.NextPlaid.Condition.Uni.Ascii (U : Uni) : Prop where
  upper : ∀ s, IsAscii s → U.upper s = s.map Char.toUpper
  lower : ∀ s, IsAscii s → U.lower s = s.map Char.toLower
  word : ∀ c : Char, c.toNat < 128 → U.reWord c = (c.isAlphanum || c == '_')
  alnum : ∀ c : Char, c.toNat < 128 → U.isAlnum c = c.isAlphanum
  space : ∀ c : Char, c.toNat < 128 → U.isSpace c = true → c ∈ [' ', '\t', '\n', '\r', '\x0b', '\x0c']

/-- A name that the library accepts for a column (filtering.rs:97-105). -/
def ColumnName (s : List Char) : Prop := ∀ c ∈ s, c.isAlphanum = true ∨ c = '_'

end NextPlaid.Spec
