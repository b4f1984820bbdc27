import Verif.Model.Basic

/-!
Model of the filter condition validator: `next-plaid/src/filtering.rs` lines 107-614.

Text is a list of characters. The Unicode tables of the Rust standard library and of the `regex` crate are
parameters (`Uni`); what is assumed of them is written where it is used (`Spec.Uni.Lawful`). Error messages are not
modelled: every refusal is `Fault.err`. The recursion is bounded by fuel; `Proofs.Condition` shows that the fuel
given is always enough, so the value `Fault.panic` used for an exhausted bound never appears. Rust's stack is taken
to be unbounded: the code recurses once per opening parenthesis.
-/

namespace NextPlaid.Condition

/-- The character tables: `char::is_whitespace`, `char::is_alphabetic`, `char::is_alphanumeric`,
`str::to_uppercase`, `str::to_lowercase`, and the classes `\w`, `\d`, `\s` of the `regex` crate. -/
structure Uni where
  isSpace : Char → Bool
  isAlpha : Char → Bool
  isAlnum : Char → Bool
  upper : List Char → List Char
  lower : List Char → List Char
  reWord : Char → Bool
  reDigit : Char → Bool
  reSpace : Char → Bool

/-- filtering.rs:117-143 `enum Token`. -/
inductive Token where
  | ident (name : List Char)
  | placeholder
  | eq | ne | lt | le | gt | ge
  | like | regexp | between | isIn | and | or | not | is | null
  | lparen | rparen | comma
  | eof
  deriving DecidableEq

/-- `str::contains` for a pattern that is a string. -/
def containsSub (pat : List Char) : List Char → Bool
  | [] => pat.isEmpty
  | c :: cs => pat.isPrefixOf (c :: cs) || containsSub pat cs

/-- The assertion `\b` between two neighbouring characters; `none` is an end of the text. -/
def boundary (U : Uni) (a b : Option Char) : Bool :=
  a.any U.reWord != b.any U.reWord

/-- `Regex::new(r"\bkw\b").is_match`: some occurrence of `kw` starts and ends at a word boundary. -/
def findWord (U : Uni) (kw : List Char) : Option Char → List Char → Bool
  | _, [] => false
  | prev, c :: cs =>
    (boundary U prev (some c) && kw.isPrefixOf (c :: cs) && boundary U kw.getLast? ((c :: cs).drop kw.length).head?) ||
      findWord U kw (some c) cs

/-- filtering.rs:164-167 `dangerous_keywords`. -/
def dangerousKeywords : List (List Char) :=
  [['S', 'E', 'L', 'E', 'C', 'T'], ['U', 'N', 'I', 'O', 'N'], ['I', 'N', 'S', 'E', 'R', 'T'],
    ['U', 'P', 'D', 'A', 'T', 'E'], ['D', 'E', 'L', 'E', 'T', 'E'], ['D', 'R', 'O', 'P'],
    ['C', 'R', 'E', 'A', 'T', 'E'], ['A', 'L', 'T', 'E', 'R'], ['T', 'R', 'U', 'N', 'C', 'A', 'T', 'E'],
    ['E', 'X', 'E', 'C'], ['E', 'X', 'E', 'C', 'U', 'T', 'E'], ['G', 'R', 'A', 'N', 'T'],
    ['R', 'E', 'V', 'O', 'K', 'E']]

/-- filtering.rs:146-181 `quick_safety_check`. -/
def quickSafetyCheck (U : Uni) (condition : List Char) : Res Unit :=
  if containsSub ['-', '-'] condition || containsSub ['/', '*'] condition || containsSub ['*', '/'] condition then
    .error .err
  else if condition.contains ';' then .error .err
  else if dangerousKeywords.any fun kw => findWord U kw none (U.upper condition) then .error .err
  else .ok ()

/-- filtering.rs:198-225, the single-character tokens. -/
def singleTok (c : Char) : Option Token :=
  if c = '?' then some .placeholder
  else if c = '(' then some .lparen
  else if c = ')' then some .rparen
  else if c = ',' then some .comma
  else if c = '=' then some .eq
  else none

/-- filtering.rs:228-254, the two-character operators. -/
def doubleTok (c : Char) (next : Option Char) : Option Token :=
  if c = '!' ∧ next = some '=' then some .ne
  else if c = '<' ∧ next = some '>' then some .ne
  else if c = '<' ∧ next = some '=' then some .le
  else if c = '>' ∧ next = some '=' then some .ge
  else none

/-- filtering.rs:257-269, the comparison operators of one character. -/
def angleTok (c : Char) : Option Token :=
  if c = '<' then some .lt else if c = '>' then some .gt else none

/-- filtering.rs:278-291, the keyword named by a word, or an identifier. -/
def wordTok (U : Uni) (word : List Char) : Token :=
  if U.upper word = ['A', 'N', 'D'] then .and
  else if U.upper word = ['O', 'R'] then .or
  else if U.upper word = ['N', 'O', 'T'] then .not
  else if U.upper word = ['I', 'S'] then .is
  else if U.upper word = ['N', 'U', 'L', 'L'] then .null
  else if U.upper word = ['L', 'I', 'K', 'E'] then .like
  else if U.upper word = ['R', 'E', 'G', 'E', 'X', 'P'] then .regexp
  else if U.upper word = ['B', 'E', 'T', 'W', 'E', 'E', 'N'] then .between
  else if U.upper word = ['I', 'N'] then .isIn
  else .ident word

/-- filtering.rs:274, the characters that continue a word. -/
def wordChar (U : Uni) (c : Char) : Bool := U.isAlnum c || c == '_'

/-- `Vec::push` before the rest of the tokens. -/
def push (t : Token) (r : Res (List Token)) : Res (List Token) := r.map (t :: ·)

/-- filtering.rs:184-319 `tokenize`, from a position to the end. -/
def tokenizeFrom (U : Uni) : Nat → List Char → Res (List Token)
  | 0, _ => .error .panic
  | _ + 1, [] => .ok [.eof]
  | n + 1, c :: cs =>
    if U.isSpace c then tokenizeFrom U n cs
    else match singleTok c with
      | some t => push t (tokenizeFrom U n cs)
      | none =>
        match doubleTok c cs.head? with
        | some t => push t (tokenizeFrom U n cs.tail)
        | none =>
          match angleTok c with
          | some t => push t (tokenizeFrom U n cs)
          | none =>
            if U.isAlpha c || c == '_' then
              push (wordTok U ((c :: cs).takeWhile (wordChar U))) (tokenizeFrom U n ((c :: cs).dropWhile (wordChar U)))
            else if c = '"' then
              match cs.dropWhile (· ≠ '"') with
              | [] => .error .err
              | _ :: rest => push (.ident (cs.takeWhile (· ≠ '"'))) (tokenizeFrom U n rest)
            else .error .err

/-- filtering.rs:184-319 `tokenize`. -/
def tokenize (U : Uni) (input : List Char) : Res (List Token) := tokenizeFrom U (input.length + 1) input

/-- filtering.rs:340-342 `current`. -/
def current : List Token → Token
  | [] => .eof
  | t :: _ => t

/-- filtering.rs:350-360 `expect`. -/
def expect (t : Token) (ts : List Token) : Res (List Token) :=
  if current ts = t then .ok ts.tail else .error .err

/-- filtering.rs:525-527, the rest of a list of placeholders. -/
def moreItems : Nat → List Token → Res (List Token)
  | 0, _ => .error .panic
  | n + 1, ts =>
    if current ts = .comma then
      match expect .placeholder ts.tail with
      | .error e => .error e
      | .ok r => moreItems n r
    else .ok ts

/-- filtering.rs:522-532 `parse_in_list`. -/
def parseInList (ts : List Token) : Res (List Token) := do
  let r ← expect .lparen ts
  let r ← expect .placeholder r
  let r ← moreItems (r.length + 1) r
  expect .rparen r

/-- filtering.rs:451-455 and 474-479, what follows `BETWEEN`. -/
def parseBetween (ts : List Token) : Res (List Token) := do
  let r ← expect .placeholder ts
  let r ← expect .and r
  expect .placeholder r

/-- filtering.rs:449-472, what follows `NOT` after a column. -/
def parseNegated (ts : List Token) : Res (List Token) :=
  match current ts with
  | .between => parseBetween ts.tail
  | .isIn => parseInList ts.tail
  | .like => expect .placeholder ts.tail
  | .regexp => expect .placeholder ts.tail
  | _ => .error .err

/-- filtering.rs:437-515, what follows a column. -/
def parseOperator (ts : List Token) : Res (List Token) :=
  match current ts with
  | .is => expect .null (if current ts.tail = .not then ts.tail.tail else ts.tail)
  | .not => parseNegated ts.tail
  | .between => parseBetween ts.tail
  | .isIn => parseInList ts.tail
  | .like => expect .placeholder ts.tail
  | .regexp => expect .placeholder ts.tail
  | .eq => expect .placeholder ts.tail
  | .ne => expect .placeholder ts.tail
  | .lt => expect .placeholder ts.tail
  | .le => expect .placeholder ts.tail
  | .gt => expect .placeholder ts.tail
  | .ge => expect .placeholder ts.tail
  | _ => .error .err

/-- filtering.rs:422-426, the column check. -/
def validColumn (U : Uni) (cols : List (List Char)) (name : List Char) : Bool :=
  cols.any fun c => U.lower c = U.lower name

/-- The methods of the recursive descent, and its two loops. -/
inductive Method where
  /-- filtering.rs:375-382 `parse_expr` -/
  | expr
  /-- filtering.rs:377-380, its loop -/
  | orLoop
  /-- filtering.rs:385-392 `parse_and_expr` -/
  | andExpr
  /-- filtering.rs:387-390, its loop -/
  | andLoop
  /-- filtering.rs:395-400 `parse_unary_expr` -/
  | unary
  /-- filtering.rs:403-518 `parse_primary_expr` -/
  | primary

/-- filtering.rs:375-518: what is left of the tokens when a method returns. The list of used columns, which nothing
reads, is left out. -/
def parse (U : Uni) (cols : List (List Char)) : Nat → Method → List Token → Res (List Token)
  | 0, _, _ => .error .panic
  | n + 1, .expr, ts =>
    match parse U cols n .andExpr ts with
    | .error e => .error e
    | .ok r => parse U cols n .orLoop r
  | n + 1, .orLoop, ts =>
    if current ts = .or then
      match parse U cols n .andExpr ts.tail with
      | .error e => .error e
      | .ok r => parse U cols n .orLoop r
    else .ok ts
  | n + 1, .andExpr, ts =>
    match parse U cols n .unary ts with
    | .error e => .error e
    | .ok r => parse U cols n .andLoop r
  | n + 1, .andLoop, ts =>
    if current ts = .and then
      match parse U cols n .unary ts.tail with
      | .error e => .error e
      | .ok r => parse U cols n .andLoop r
    else .ok ts
  | n + 1, .unary, ts =>
    if current ts = .not then parse U cols n .primary ts.tail else parse U cols n .primary ts
  | n + 1, .primary, ts =>
    if current ts = .lparen then
      match parse U cols n .expr ts.tail with
      | .error e => .error e
      | .ok r => expect .rparen r
    else
      match current ts with
      | .ident name => if validColumn U cols name then parseOperator ts.tail else .error .err
      | _ => .error .err

/-- filtering.rs:363-372 `validate`. -/
def validate (U : Uni) (cols : List (List Char)) (tokens : List Token) : Res Unit :=
  match parse U cols (6 * tokens.length + 6) .expr tokens with
  | .error e => .error e
  | .ok r => if current r = .eof then .ok () else .error .err

/-- `str::trim`. -/
def trim (U : Uni) (s : List Char) : List Char :=
  ((s.dropWhile U.isSpace).reverse.dropWhile U.isSpace).reverse

/-- filtering.rs:586-594 `is_numeric_equality`: the regular expression `^(\d+)\s*=\s*(\d+)$`. The three classes of
characters it uses exclude each other, so the greedy reading is the only one. -/
def isNumericEquality (U : Uni) (condition : List Char) : Bool :=
  let s := trim U condition
  !(s.takeWhile U.reDigit).isEmpty &&
    match (s.dropWhile U.reDigit).dropWhile U.reSpace with
    | [] => false
    | c :: rest => c == '=' && !(rest.dropWhile U.reSpace).isEmpty && (rest.dropWhile U.reSpace).all U.reDigit

/-- filtering.rs:596-614 `validate_condition`. -/
def validateCondition (U : Uni) (cols : List (List Char)) (condition : List Char) : Res Unit :=
  if isNumericEquality U condition then .ok ()
  else do
    quickSafetyCheck U condition
    let tokens ← tokenize U condition
    validate U cols tokens

end NextPlaid.Condition
