import Verif.Model.Basic

/-!
Model of JSON as text, as the files of an index and of the command line tool are written and read:
`serde_json::to_writer`, `to_writer_pretty`, `to_string_pretty`, `from_reader` and `from_str`
(serde_json is a dependency and its source is not in /repo; it is called at, for example,
/repo/next-plaid/src/index.rs:133, 145, 446, 455 and 522, /repo/next-plaid/src/update.rs:210 and 220,
/repo/colgrep/src/index/state.rs:71 and 92, /repo/colgrep/src/config.rs:198 and 212).

Text is a list of characters.  Printing and reading of numbers that are not integers is a parameter; a number is split off
the text concretely.
-/

namespace NextPlaid.JsonText

/-- A JSON value.  The entries of an object are in the order of the text and may repeat a key.  `int` is a number without
fraction and exponent in the range of `i64` or `u64`, `real` is any other number. -/
inductive J (R : Type) where
  | null
  | bool (b : Bool)
  | int (i : Int)
  | real (r : R)
  | str (s : List Char)
  | arr (l : List (J R))
  | obj (l : List (List Char × J R))

/-- Floating point numbers: how one is printed (none: not a finite number), what a text denotes (none: out of range) and the
nearest number of an integer. -/
structure Reals (R : Type) where
  shows : R → Option (List Char)
  reads : List Char → Option R
  ofInt : Int → R

/-! ### Writing -/

/-- A hexadecimal digit, in lower case. -/
def hexDigit (n : Nat) : Char := Nat.digitChar n

/-- One character of a string: serde_json's table of escapes.  `"`, `\` and the control characters below 32 are escaped. -/
def escape (c : Char) : List Char :=
  if c = '"' then ['\\', '"']
  else if c = '\\' then ['\\', '\\']
  else if c.toNat = 8 then ['\\', 'b']
  else if c.toNat = 9 then ['\\', 't']
  else if c.toNat = 10 then ['\\', 'n']
  else if c.toNat = 12 then ['\\', 'f']
  else if c.toNat = 13 then ['\\', 'r']
  else if c.toNat < 32 then ['\\', 'u', '0', '0', hexDigit (c.toNat / 16), hexDigit (c.toNat % 16)]
  else [c]

/-- A string in quotes. -/
def quote (s : List Char) : List Char := '"' :: (s.flatMap escape ++ ['"'])

/-- An integer in decimal. -/
def showInt (i : Int) : List Char :=
  if i < 0 then '-' :: Nat.toDigits 10 i.natAbs else Nat.toDigits 10 i.natAbs

/-- The layout: `none` is compact (`CompactFormatter`), `some k` is pretty at nesting level `k` (`PrettyFormatter`). -/
abbrev Layout := Option Nat

/-- What is written before an element of a container. -/
def gap : Layout → List Char
  | none => []
  | some k => '\n' :: List.replicate (2 * (k + 1)) ' '

/-- What is written before the end of a container that is not empty. -/
def endGap : Layout → List Char
  | none => []
  | some k => '\n' :: List.replicate (2 * k) ' '

/-- What is written between a key and its value. -/
def colon : Layout → List Char
  | none => [':']
  | some _ => [':', ' ']

/-- The layout one level deeper. -/
def deeper : Layout → Layout := Option.map (· + 1)

variable {R : Type} (F : Reals R)

mutual

/-- A value as text.  A number that is not finite is written as `null`. -/
def render (y : Layout) : J R → List Char
  | .null => ['n', 'u', 'l', 'l']
  | .bool true => ['t', 'r', 'u', 'e']
  | .bool false => ['f', 'a', 'l', 's', 'e']
  | .int i => showInt i
  | .real r => (F.shows r).getD ['n', 'u', 'l', 'l']
  | .str s => quote s
  | .arr [] => ['[', ']']
  | .arr (v :: l) => '[' :: (gap y ++ render (deeper y) v ++ renderItems y l)
  | .obj [] => ['{', '}']
  | .obj (e :: l) => '{' :: (gap y ++ renderEntry y e ++ renderMembers y l)

/-- The elements after the first, and the closing bracket. -/
def renderItems (y : Layout) : List (J R) → List Char
  | [] => endGap y ++ [']']
  | v :: l => ',' :: (gap y ++ render (deeper y) v ++ renderItems y l)

/-- An entry of an object. -/
def renderEntry (y : Layout) : List Char × J R → List Char
  | (k, v) => quote k ++ colon y ++ render (deeper y) v

/-- The entries after the first, and the closing brace. -/
def renderMembers (y : Layout) : List (List Char × J R) → List Char
  | [] => endGap y ++ ['}']
  | e :: l => ',' :: (gap y ++ renderEntry y e ++ renderMembers y l)

end

/-- `serde_json::to_writer`. -/
def compact (v : J R) : List Char := render F none v

/-- `serde_json::to_writer_pretty`, `to_string_pretty`. -/
def pretty (v : J R) : List Char := render F (some 0) v

/-! ### Reading -/

/-- White space between the tokens. -/
def isWs (c : Char) : Bool := c == ' ' || c == '\n' || c == '\t' || c == '\r'

/-- Skip white space. -/
def skip (s : List Char) : List Char := s.dropWhile isWs

/-- The value of a hexadecimal digit. -/
def hexVal (c : Char) : Option Nat :=
  if '0' ≤ c ∧ c ≤ '9' then some (c.toNat - 48)
  else if 'a' ≤ c ∧ c ≤ 'f' then some (c.toNat - 87)
  else if 'A' ≤ c ∧ c ≤ 'F' then some (c.toNat - 55)
  else none

/-- Four hexadecimal digits. -/
def hex4 (a b c d : Char) : Option Nat := do
  let a ← hexVal a
  let b ← hexVal b
  let c ← hexVal c
  let d ← hexVal d
  return ((a * 16 + b) * 16 + c) * 16 + d

/-- The escapes of one character. -/
def unescape (c : Char) : Option Char :=
  if c = '"' then some '"'
  else if c = '\\' then some '\\'
  else if c = '/' then some '/'
  else if c = 'b' then some (Char.ofNat 8)
  else if c = 'f' then some (Char.ofNat 12)
  else if c = 'n' then some '\n'
  else if c = 'r' then some '\r'
  else if c = 't' then some '\t'
  else none

/-- The rest of a string after its opening quote: its characters and the text after the closing quote.  `hi` is the first
half of a character above U+FFFF, when the second half must follow. -/
def string (hi : Option Nat) : List Char → Option (List Char × List Char)
  | [] => none
  | c :: t =>
    if c = '"' then (if hi.isNone then some ([], t) else none)
    else if c = '\\' then
      match t with
      | [] => none
      | e :: u =>
        if e = 'u' then
          match u with
          | x1 :: x2 :: x3 :: x4 :: v =>
            match hex4 x1 x2 x3 x4, hi with
            | none, _ => none
            | some n, some h =>
              if 0xDC00 ≤ n ∧ n ≤ 0xDFFF then
                (string none v).map fun p => (Char.ofNat (0x10000 + (h - 0xD800) * 0x400 + (n - 0xDC00)) :: p.1, p.2)
              else none
            | some n, none =>
              if 0xDC00 ≤ n ∧ n ≤ 0xDFFF then none
              else if 0xD800 ≤ n ∧ n ≤ 0xDBFF then string (some n) v
              else (string none v).map fun p => (Char.ofNat n :: p.1, p.2)
          | _ => none
        else if hi.isSome then none
        else
          match unescape e with
          | none => none
          | some x => (string none u).map fun p => (x :: p.1, p.2)
    else if hi.isSome ∨ c.toNat < 32 then none
    else (string none t).map fun p => (c :: p.1, p.2)

/-- The value of decimal digits. -/
def decimal (ds : List Char) : Nat := ds.foldl (fun n c => 10 * n + (c.toNat - 48)) 0

/-- An optional fraction. -/
def fraction : List Char → Option (List Char × List Char)
  | [] => some ([], [])
  | c :: t =>
    if c = '.' then
      if t.takeWhile Char.isDigit = [] then none
      else some ('.' :: t.takeWhile Char.isDigit, t.dropWhile Char.isDigit)
    else some ([], c :: t)

/-- An optional sign of an exponent. -/
def expSign : List Char → List Char × List Char
  | [] => ([], [])
  | c :: t => if c = '+' ∨ c = '-' then ([c], t) else ([], c :: t)

/-- An optional exponent. -/
def exponent : List Char → Option (List Char × List Char)
  | [] => some ([], [])
  | c :: t =>
    if c = 'e' ∨ c = 'E' then
      if (expSign t).2.takeWhile Char.isDigit = [] then none
      else some (c :: ((expSign t).1 ++ (expSign t).2.takeWhile Char.isDigit), (expSign t).2.dropWhile Char.isDigit)
    else some ([], c :: t)

/-- An integer: one out of the range of `i64` and `u64`, and `-0`, is read as a floating point number. -/
def integer (neg : Bool) (ds : List Char) : Option (J R) :=
  if neg then
    if 0 < decimal ds ∧ decimal ds ≤ 2 ^ 63 then some (.int (-decimal ds)) else (F.reads ('-' :: ds)).map .real
  else if decimal ds < 2 ^ 64 then some (.int (decimal ds)) else (F.reads ds).map .real

/-- The number with the given sign, digits, fraction and exponent. -/
def numeral (neg : Bool) (ds f e : List Char) : Option (J R) :=
  if f = [] ∧ e = [] then integer F neg ds else (F.reads ((if neg then ['-'] else []) ++ ds ++ f ++ e)).map J.real

/-- A number after its sign. -/
def unsigned (neg : Bool) (s : List Char) : Option (J R × List Char) :=
  let ds := s.takeWhile Char.isDigit
  if ds = [] ∨ ds.head? = some '0' ∧ 1 < ds.length then none
  else
    (fraction (s.dropWhile Char.isDigit)).bind fun f =>
      (exponent f.2).bind fun e => (numeral F neg ds f.1 e.1).map fun v => (v, e.2)

/-- A number at the start of a text. -/
def number : List Char → Option (J R × List Char)
  | [] => none
  | c :: t => if c = '-' then unsigned F true t else unsigned F false (c :: t)

/-- A word that must follow. -/
def word (w : List Char) (v : J R) (s : List Char) : Option (J R × List Char) :=
  if s.take w.length = w then some (v, s.drop w.length) else none

mutual

/-- A value at the start of a text, and the text after it.  The second argument is the remaining depth of nesting: a value
nested in 128 containers is refused (`disable_recursion_limit` is not used).  Simplified: an unknown field of a record is
read as a value here, serde_json skips it without these checks.  The first argument bounds the number of steps. -/
def value : Nat → Nat → List Char → Option (J R × List Char)
  | 0, _, _ => none
  | n + 1, d, s =>
    match skip s with
    | [] => none
    | c :: t =>
      if c = 'n' then word ['u', 'l', 'l'] .null t
      else if c = 't' then word ['r', 'u', 'e'] (.bool true) t
      else if c = 'f' then word ['a', 'l', 's', 'e'] (.bool false) t
      else if c = '"' then (string none t).map fun p => (.str p.1, p.2)
      else if c = '[' then
        if d < 2 then none
        else if (skip t).head? = some ']' then some (.arr [], (skip t).tail)
        else (items n (d - 1) t).map fun p => (.arr p.1, p.2)
      else if c = '{' then
        if d < 2 then none
        else if (skip t).head? = some '}' then some (.obj [], (skip t).tail)
        else (members n (d - 1) t).map fun p => (.obj p.1, p.2)
      else number F (c :: t)

/-- The elements of an array that is not empty, and the text after its closing bracket. -/
def items : Nat → Nat → List Char → Option (List (J R) × List Char)
  | 0, _, _ => none
  | n + 1, d, s =>
    (value n d s).bind fun p =>
      match skip p.2 with
      | [] => none
      | c :: t =>
        if c = ',' then (items n d t).map fun q => (p.1 :: q.1, q.2)
        else if c = ']' then some ([p.1], t)
        else none

/-- The entries of an object that is not empty, and the text after its closing brace. -/
def members : Nat → Nat → List Char → Option (List (List Char × J R) × List Char)
  | 0, _, _ => none
  | n + 1, d, s =>
    match skip s with
    | [] => none
    | c :: t =>
      if c = '"' then
        (string none t).bind fun k =>
          match skip k.2 with
          | [] => none
          | c :: u =>
            if c = ':' then
              (value n d u).bind fun p =>
                match skip p.2 with
                | [] => none
                | c :: t =>
                  if c = ',' then (members n d t).map fun q => ((k.1, p.1) :: q.1, q.2)
                  else if c = '}' then some ([(k.1, p.1)], t)
                  else none
            else none
      else none

end

/-- `serde_json::from_str`, `from_reader`: one value, and nothing but white space after it. -/
def parse (s : List Char) : Option (J R) :=
  match value F (2 * s.length + 2) 128 s with
  | none => none
  | some (v, rest) => if skip rest = [] then some v else none

end NextPlaid.JsonText
