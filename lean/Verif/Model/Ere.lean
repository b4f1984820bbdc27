import Verif.Model.Ranking

/-!
Model of how `colgrep -e` rewrites a pattern before it is handed to the engine of regular expressions: `bre_to_ere` and
`escape_literal_braces`, /repo/colgrep/src/index/mod.rs:3142-3410.
-/

namespace NextPlaid.Ere

/-- A character, or a backslash with the character behind it.  Both passes of `bre_to_ere` go through the pattern in these steps; a
backslash at the end is a character.  /repo/colgrep/src/index/mod.rs:3156-3186, 3196-3200. -/
inductive Tok
  | plain (c : Char)
  | esc (c : Char)
  deriving DecidableEq, Repr

def tokens : List Char → List Tok
  | [] => []
  | [c] => [.plain c]
  | c :: d :: cs => if c = '\\' then .esc d :: tokens cs else .plain c :: tokens (d :: cs)

def Tok.text : Tok → List Char
  | .plain c => [c]
  | .esc c => ['\\', c]

/-- One step of `mark_pairs`: the stack of the open places and the places to convert.  Places are counted in steps here, in
characters in the code.  /repo/colgrep/src/index/mod.rs:3157-3185. -/
def markOne (o c : Char) (st : List Nat × List Nat) (p : Tok × Nat) : List Nat × List Nat :=
  if p.1 = .esc o then (p.2 :: st.1, st.2)
  else if p.1 = .esc c then match st.1 with
    | [] => st
    | i :: stack => (stack, p.2 :: i :: st.2)
  else st

/-- `mark_pairs`: the places marked.  /repo/colgrep/src/index/mod.rs:3152-3187. -/
def markPairs (o c : Char) (ts : List Tok) : List Nat := (ts.zipIdx.foldl (markOne o c) ([], [])).2

/-- One step of the second pass: the result and `skip_close_brace`.  /repo/colgrep/src/index/mod.rs:3197-3258. -/
def convertOne (marked : List Nat) (st : List Char × Nat) (p : Tok × Nat) : List Char × Nat := match p.1 with
  | .plain c => (st.1 ++ [c], st.2)
  | .esc '|' => (st.1 ++ ['|'], st.2)
  | .esc c =>
    if (c = '(' ∨ c = ')') ∧ p.2 ∈ marked then (st.1 ++ [c], st.2)
    else if c = '{' ∧ p.2 ∈ marked then
      if st.1 = [] then (['\\', '{'], st.2 + 1) else (st.1 ++ ['{'], st.2)
    else if c = '}' ∧ p.2 ∈ marked then
      if 0 < st.2 then (st.1 ++ ['\\', '}'], st.2 - 1) else (st.1 ++ ['}'], st.2)
    else (st.1 ++ ['\\', c], st.2)

/-- `bre_to_ere`: /repo/colgrep/src/index/mod.rs:3142-3262. -/
def breToEre (pattern : List Char) : List Char :=
  ((tokens pattern).zipIdx.foldl
    (convertOne (markPairs '(' ')' (tokens pattern) ++ markPairs '{' '}' (tokens pattern))) ([], 0)).1

/-- `find_matching_brace`: the characters up to the closing brace.  /repo/colgrep/src/index/mod.rs:3371-3382. -/
def braceBody : List Char → Option (List Char)
  | [] => none
  | c :: cs => if c = '}' then some [] else if c = '{' then none else (braceBody cs).map (c :: ·)

/-- `str::split(',')`. -/
def splitComma : List Char → List (List Char)
  | [] => [[]]
  | c :: cs => if c = ',' then [] :: splitComma cs else match splitComma cs with
    | [] => [[c]]
    | l :: ls => (c :: l) :: ls

/-- `is_valid_quantifier`: /repo/colgrep/src/index/mod.rs:3385-3410. -/
def validQuantifier (content : List Char) : Bool := match splitComma content with
  | [a] => !a.isEmpty && a.all Char.isDigit
  | [a, b] => a.all Char.isDigit && b.all Char.isDigit && (!a.isEmpty || !b.isEmpty)
  | _ => false

/-- The loop of `escape_literal_braces`: `prev`, the character before; `cls`, inside a class; `copy`, how many characters of a
quantifier are still to be copied.  /repo/colgrep/src/index/mod.rs:3288-3362. -/
def escBraces (prev : Option Char) (cls : Bool) (copy : Nat) : List Char → List Char
  | [] => []
  | c :: cs =>
    if 0 < copy then c :: escBraces (some c) cls (copy - 1) cs
    else if c = '[' ∧ prev ≠ some '\\' then c :: escBraces (some c) true 0 cs
    else if c = ']' ∧ cls = true ∧ prev ≠ some '\\' then c :: escBraces (some c) false 0 cs
    else if cls then c :: escBraces (some c) true 0 cs
    else if c = '\\' then match cs with
      | [] => ['\\']
      | d :: ds =>
        if d = '{' ∨ d = '}' then '[' :: d :: ']' :: escBraces (some d) false 0 ds
        else '\\' :: d :: escBraces (some d) false 0 ds
    else if c = '{' then match braceBody cs with
      | some body => if validQuantifier body then '{' :: escBraces (some '{') false (body.length + 1) cs
        else '[' :: '{' :: ']' :: escBraces (some '{') false 0 cs
      | none => '[' :: '{' :: ']' :: escBraces (some '{') false 0 cs
    else if c = '}' then '[' :: '}' :: ']' :: escBraces (some '}') false 0 cs
    else c :: escBraces (some c) false 0 cs

/-- `escape_literal_braces`: /repo/colgrep/src/index/mod.rs:3281-3365. -/
def escapeLiteralBraces (pattern : List Char) : List Char := escBraces none false 0 pattern

/-- `escape_literal_braces(&bre_to_ere(pattern))`: /repo/colgrep/src/index/mod.rs:3932, 3936 and commands/search.rs:65. -/
def toEre (pattern : List Char) : List Char := escapeLiteralBraces (breToEre pattern)

end NextPlaid.Ere
