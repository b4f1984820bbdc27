/-!
Model of the regular expressions that `colgrep` builds and hands to `fancy_regex`.  The engine is outside /repo: what is modelled is
the meaning of the syntax its documentation gives, for the part of the syntax that `colgrep` generates (literals, escapes, `.`,
`[…]`, `[^…]`, `(…)`, `|`, `*`, `+`, `?`, `{n}`, `{n,}`, `{n,m}`, `^`, `$`, `\b`).  Expressions outside this part are refused by `parse`, except
a quantifier right behind a quantifier (`*?`, `*+`), which is read as a second repetition here and about which nothing is claimed.  The
expressions themselves are text, as in the code, so that a missing escape is visible.  Size and backtracking limits are left out.
-/

namespace NextPlaid.Regex

/-- Syntax trees of expressions.  Models the external engine's syntax. -/
inductive Rx
  | eps
  | chr (c : Char)
  | any
  | set (neg : Bool) (cs : List Char)
  | bol
  | eol
  | word
  | cat (a b : Rx)
  | alt (a b : Rx)
  | opt (a : Rx)
  | star (a : Rx)
  deriving DecidableEq, Repr

/-- The alternatives (latest first) and the pieces (latest first) of an open group. -/
structure Frame where
  alts : List Rx := []
  cur : List Rx := []
  deriving DecidableEq, Repr

/-- Where the parser is: among pieces, after `\`, after `(`, after `[`, inside `[…`, inside `{n`, inside `{n,m`. -/
inductive Mode
  | normal
  | esc
  | group
  | open_
  | cls (neg : Bool) (cs : List Char)
  | low (n : Option Nat)
  | high (lo : Nat) (n : Option Nat)
  deriving DecidableEq, Repr

/-- The state of the parser: mode, open group, groups around it. -/
structure PState where
  mode : Mode := .normal
  top : Frame := {}
  outer : List Frame := []
  deriving DecidableEq, Repr

/-- A sequence of pieces, latest first. -/
def seq (cur : List Rx) : Rx := cur.foldl (fun acc r => .cat r acc) .eps

/-- The expression of a group that ends. -/
def Frame.finish (f : Frame) : Rx := f.alts.foldl (fun acc a => .alt a acc) (seq f.cur)

def Frame.add (f : Frame) (r : Rx) : Frame := { f with cur := r :: f.cur }

/-- Quantifier on the latest piece; without a piece the expression is refused. -/
def Frame.quantify (f : Frame) (g : Rx → Rx) : Option Frame := match f.cur with
  | [] => none
  | r :: rest => some { f with cur := g r :: rest }

/-- `{n}`. -/
def Rx.times (a : Rx) : Nat → Rx
  | 0 => .eps
  | n + 1 => .cat a (a.times n)

/-- At most so often. -/
def Rx.upTo (a : Rx) : Nat → Rx
  | 0 => .eps
  | n + 1 => .opt (.cat a (a.upTo n))

/-- `{lo,hi}`; `{lo,}` without `hi`. -/
def Rx.counted (lo : Nat) (hi : Option Nat) (a : Rx) : Rx := match hi with
  | none => .cat (a.times lo) (.star a)
  | some m => .cat (a.times lo) (a.upTo (m - lo))

/-- One more decimal digit. -/
def addDigit (n : Option Nat) (c : Char) : Nat := 10 * n.getD 0 + (c.toNat - 48)

/-- The characters that `regex::escape` escapes (crate `regex`, outside /repo); `\c` stands for `c` for each of them. -/
def metas : List Char := ['\\', '.', '+', '*', '?', '(', ')', '|', '[', ']', '{', '}', '^', '$', '#', '&', '-', '~']

/-- One piece or operator outside classes. -/
def step0 (s : PState) (c : Char) : Option PState :=
  if c = '\\' then some { s with mode := .esc }
  else if c = '[' then some { s with mode := .open_ }
  else if c = '(' then some { mode := .group, top := {}, outer := s.top :: s.outer }
  else if c = ')' then match s.outer with
    | [] => none
    | f :: rest => some { mode := .normal, top := f.add s.top.finish, outer := rest }
  else if c = '|' then some { s with mode := .normal, top := { alts := seq s.top.cur :: s.top.alts, cur := [] } }
  else if c = '*' then (s.top.quantify .star).map fun f => { s with mode := .normal, top := f }
  else if c = '?' then (s.top.quantify .opt).map fun f => { s with mode := .normal, top := f }
  else if c = '+' then (s.top.quantify fun a => .cat a (.star a)).map fun f => { s with mode := .normal, top := f }
  else if c = '{' then some { s with mode := .low none }
  else if c = '.' then some { s with mode := .normal, top := s.top.add .any }
  else if c = '^' then some { s with mode := .normal, top := s.top.add .bol }
  else if c = '$' then some { s with mode := .normal, top := s.top.add .eol }
  else some { s with mode := .normal, top := s.top.add (.chr c) }

/-- The characters a class may list here; ranges, nested classes and class operators are refused. -/
def clsChar (c : Char) : Bool := c ∉ ['[', ']', '^', '-', '&', '~', '\\']

/-- One character of the expression. -/
def step (s : PState) (c : Char) : Option PState := match s.mode with
  | .normal => step0 s c
  | .group => if c = '?' then none else step0 s c
  | .esc =>
    if c ∈ metas then some { s with mode := .normal, top := s.top.add (.chr c) }
    else if c = 'b' then some { s with mode := .normal, top := s.top.add .word }
    else none
  | .open_ =>
    if c = '^' then some { s with mode := .cls true [] }
    else if clsChar c then some { s with mode := .cls false [c] }
    else none
  | .cls neg cs =>
    if c = ']' then (if cs = [] then none else some { s with mode := .normal, top := s.top.add (.set neg cs.reverse) })
    else if clsChar c then some { s with mode := .cls neg (c :: cs) }
    else none
  | .low n =>
    if c.isDigit then some { s with mode := .low (some (addDigit n c)) }
    else n.bind fun lo =>
      if c = ',' then some { s with mode := .high lo none }
      else if c = '}' then (s.top.quantify (.counted lo (some lo))).map fun f => { s with mode := .normal, top := f }
      else none
  | .high lo n =>
    if c.isDigit then some { s with mode := .high lo (some (addDigit n c)) }
    else if c = '}' then
      if n.all (lo ≤ ·) then (s.top.quantify (.counted lo n)).map fun f => { s with mode := .normal, top := f } else none
    else none

def parseFrom (s : PState) : List Char → Option PState
  | [] => some s
  | c :: cs => (step s c).bind fun s' => parseFrom s' cs

/-- The meaning of an expression's text; `none` if it is malformed or outside the modelled part. -/
def parse (text : List Char) : Option Rx := (parseFrom {} text).bind fun s =>
  if s.mode = .normal ∧ s.outer = [] then some s.top.finish else none

/-- What the flags of an expression choose: `^` and `$` at line ends (`m`), equality of characters (`i`); and which characters make
words. -/
structure Flags where
  multi : Bool := false
  fold : Char → Char := id
  isWord : Char → Bool := Char.isAlphanum

/-- A place in the text: the character before and the characters after. -/
abbrev Place := Option Char × List Char

def Flags.wordy (f : Flags) (c : Option Char) : Bool := c.any f.isWord

def atStart (f : Flags) (p : Place) : Bool := p.1 = none ∨ (f.multi ∧ p.1 = some '\n')

def atEnd (f : Flags) (p : Place) : Bool := p.2 = [] ∨ (f.multi ∧ p.2.head? = some '\n')

def Rx.accepts (f : Flags) : Rx → Char → Bool
  | .chr c, d => f.fold c = f.fold d
  | .any, d => d ≠ '\n'
  | .set neg cs, d => (cs.any fun c => f.fold c = f.fold d) != neg
  | _, _ => false

/-- The places after one character. -/
def eat (ok : Char → Bool) (p : Place) : List Place := match p.2 with
  | [] => []
  | d :: ds => if ok d then [(some d, ds)] else []

/-- Repetition, at most `n` times. -/
def iter (g : Place → List Place) : Nat → Place → List Place
  | 0, p => [p]
  | n + 1, p => p :: (((g p).filter fun q => q.2.length < p.2.length).flatMap (iter g n))

/-- The places where a match that starts at `p` can end. -/
def ends (f : Flags) : Rx → Place → List Place
  | .eps, p => [p]
  | .chr c, p => eat (Rx.accepts f (.chr c)) p
  | .any, p => eat (Rx.accepts f .any) p
  | .set neg cs, p => eat (Rx.accepts f (.set neg cs)) p
  | .bol, p => if atStart f p then [p] else []
  | .eol, p => if atEnd f p then [p] else []
  | .word, p => if f.wordy p.1 != f.wordy p.2.head? then [p] else []
  | .cat a b, p => (ends f a p).flatMap (ends f b)
  | .alt a b, p => ends f a p ++ ends f b p
  | .opt a, p => p :: ends f a p
  | .star a, p => iter (ends f a) p.2.length p

/-- `Regex::is_match` from a place on: a match starts here or later. -/
def searchFrom (f : Flags) (r : Rx) : Option Char → List Char → Bool
  | b, [] => !(ends f r (b, [])).isEmpty
  | b, c :: cs => !(ends f r (b, c :: cs)).isEmpty || searchFrom f r (some c) cs

/-- `Regex::is_match`: the expression matches somewhere in the text. -/
def isMatch (f : Flags) (r : Rx) (text : List Char) : Bool := searchFrom f r none text

end NextPlaid.Regex
