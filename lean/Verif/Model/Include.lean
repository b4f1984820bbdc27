import Mathlib.Data.List.Infix
import Verif.Model.Globs

/-!
Model of `--include`: brace expansion, and matching with the crate `globset` (outside /repo; its documented meaning with default
options is modelled: `*` and `?` also stand for `/`).
-/

namespace NextPlaid.Globs

/-- The alternatives between `{` and `}`, split at the commas that are not behind a further `{`; the last one apart.
colgrep/src/index/mod.rs:3430-3453.  There is no `}` between the two, so the depth only grows. -/
def splitAlts : Nat → List Char → List Char → List (List Char) × List Char
  | _, cur, [] => ([], cur)
  | depth, cur, c :: cs =>
    if c = '{' then splitAlts (depth + 1) (cur ++ [c]) cs
    else if c = ',' ∧ depth = 0 then (cur :: (splitAlts depth [] cs).1, (splitAlts depth [] cs).2)
    else splitAlts depth (cur ++ [c]) cs

/-- All alternatives; the last one only if it is not empty or follows a comma.  colgrep/src/index/mod.rs:3430-3459. -/
def altsOf (alternatives : List Char) : List (List Char) :=
  let (done, last) := splitAlts 0 [] alternatives
  if last ≠ [] ∨ alternatives.getLast? = some ',' then done ++ [last] else done

/-- `expand_braces`, with a bound on the depth of the recursion.  colgrep/src/index/mod.rs:3414-3462. -/
def expandN : Nat → List Char → List (List Char)
  | 0, _ => []
  | n + 1, p =>
    if '{' ∉ p then [p]
    else if '}' ∉ (p.dropWhile (· ≠ '{')) then [p]
    else
      let pre := p.takeWhile (· ≠ '{')
      let body := (p.dropWhile (· ≠ '{')).tail
      let suffix := (body.dropWhile (· ≠ '}')).tail
      (altsOf (body.takeWhile (· ≠ '}'))).flatMap fun a => expandN n (pre ++ a ++ suffix)

/-- `expand_braces`: every round removes a `}`, so their number bounds the recursion (see `expandN_enough`). -/
def expandBraces (p : List Char) : List (List Char) := expandN (p.count '}' + 1) p

/-- What follows each `/` of a path. -/
def cuts : List Char → List (List Char)
  | [] => []
  | c :: cs => if c = '/' then cs :: cuts cs else cuts cs

/-- What follows the start or a `/` of a path: where `**/` may end.  Models the crate `globset`. -/
def endsOf (s : List Char) : List (List Char) := s :: cuts s

/-- A pattern of `globset` against a whole path: `/**/` is any number of directories, `/**` at the end anything below, other
`*` any characters, `?` any character.  Classes, braces, escapes and other uses of `**` are left out. -/
def globset : List Char → List Char → Bool
  | ['/', '*', '*'], s => s.head? = some '/'
  | '/' :: '*' :: '*' :: '/' :: p, s => match s with
    | '/' :: t => (endsOf t).any (globset p)
    | _ => false
  | '*' :: p, s => s.tails.any (globset p)
  | '?' :: p, s => match s with
    | _ :: t => globset p t
    | [] => false
  | c :: p, s => match s with
    | d :: t => c = d && globset p t
    | [] => false
  | [], s => s.isEmpty

/-- One pattern of `build_glob_set`: `**/` is put in front unless it is there or the pattern starts with `/`.
colgrep/src/index/mod.rs:3473-3485. -/
def includes (p path : List Char) : Bool :=
  if ['/'].isPrefixOf p then globset p path
  else if anyDir.isPrefixOf p then (endsOf path).any (globset (p.drop 3))
  else (endsOf path).any (globset p)

/-- `Searcher::filter_by_file_patterns`.  colgrep/src/index/mod.rs:3766-3797. -/
def filterInclude (rows : List Row) (patterns : List (List Char)) : List Int :=
  if patterns = [] then []
  else (rows.filter fun row => (patterns.flatMap expandBraces).any fun p => includes p row.file).map (·.id)

end NextPlaid.Globs
