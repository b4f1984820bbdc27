import Verif.Model.Scan
import Verif.Model.Units
import Verif.Model.TextQuery

/-!
The documentation that colgrep notes about a function or class: `extract_docstring` of
`/repo/colgrep/src/parser/analysis.rs:99-400`.

The lines of a file are texts, the syntax tree is given by kinds, fields and rows. The parser itself is not modelled.
-/

namespace NextPlaid.Docs

open Units (Text trim isWs startsWith slice joinNl)
open Scan (Language)
open NextPlaid.Text (trimMatches)

/-- `Node::kind`, the field of the parent the node stands in, the rows of `start_position` and `end_position`. -/
structure DInfo where
  kind : String
  field : Option String
  first : Nat
  last : Nat
deriving DecidableEq, Repr

/-- A node with its children. -/
inductive DNode where
  | mk (info : DInfo) (children : List DNode)

def DNode.info : DNode → DInfo
  | .mk i _ => i

def DNode.children : DNode → List DNode
  | .mk _ cs => cs

/-- `Node::child_by_field_name`. -/
def DNode.byField (n : DNode) (f : String) : Option DNode := n.children.find? fun c => c.info.field == some f

/-- The loop of `str::trim_start_matches` with a string, at most so many times. -/
def stripLoop (p : Text) : Nat → Text → Text
  | 0, t => t
  | k + 1, t => if startsWith t p then stripLoop p k (t.drop p.length) else t

/-- `str::trim_start_matches` with a string that is not empty: it is removed as often as it is there. -/
def stripStart (p t : Text) : Text := stripLoop p t.length t

/-- `str::trim_end_matches` with a string. -/
def stripEnd (p t : Text) : Text := (stripStart p.reverse t.reverse).reverse

/-- `str::ends_with`. -/
def endsWith (t p : Text) : Bool := p.isSuffixOf t

/-- `join(" ")`. -/
def joined (ts : List Text) : Text := [' '].intercalate ts

/-- The loop over the lines above a node, the nearest first, for comments with a mark at the beginning of each line
(Rust, analysis.rs:127-136; Swift 230-239; Go 252-262; C and C++ 276-285; Ruby 321-330). `skip` are the beginnings of the
lines that are passed over. `doc_lines.insert(0, …)` puts a line before those that were found below it. -/
def lineLoop (mark : Text) (skip : List Text) : List Text → List Text → List Text
  | [], acc => acc
  | l :: up, acc =>
    if startsWith (trim l) mark then lineLoop mark skip up (trim (stripStart mark (trim l)) :: acc)
    else if (skip.any fun s => startsWith (trim l) s) || (trim l).isEmpty then lineLoop mark skip up acc
    else acc

/-- The loop for Haskell, analysis.rs:186-200. -/
def haskellLoop : List Text → List Text → List Text
  | [], acc => acc
  | l :: up, acc =>
    if startsWith (trim l) "-- |".toList || startsWith (trim l) "-- ^".toList then
      haskellLoop up (trim (stripStart "-- ^".toList (stripStart "-- |".toList (trim l))) :: acc)
    else if startsWith (trim l) "--".toList && !acc.isEmpty then haskellLoop up (trim (stripStart "--".toList (trim l)) :: acc)
    else if !(trim l).isEmpty then acc
    else haskellLoop up acc

/-- The loop for Lua, analysis.rs:373-386; the flag is `found_triple_dash`. -/
def luaLoop : List Text → List Text → Bool → List Text × Bool
  | [], acc, found => (acc, found)
  | l :: up, acc, found =>
    if startsWith (trim l) "---".toList then luaLoop up (trim (stripStart "---".toList (trim l)) :: acc) true
    else if startsWith (trim l) "--".toList then luaLoop up (trim (stripStart "--".toList (trim l)) :: acc) found
    else if (trim l).isEmpty then luaLoop up acc found
    else (acc, found)

/-- The loop for Elixir, analysis.rs:212-221. -/
def elixirLoop : List Text → Option Text
  | [] => none
  | l :: up =>
    if startsWith (trim l) "@doc".toList || startsWith (trim l) "@moduledoc".toList then
      if (trim l).contains '"' then some (trimMatches (fun c => c == '"') ((trim l).dropWhile fun c => c != '"'))
      else elixirLoop up
    else if !(trim l).isEmpty && !startsWith (trim l) ['#'] && !startsWith (trim l) ['@'] then none
    else elixirLoop up

/-- `doc_lines.is_empty()` or not, at the end of each of these. -/
def nonEmptyDoc (ts : List Text) : Option Text := if ts.isEmpty then none else some (joined ts)

/-- The search upwards for the line where a comment opens; the lines from there to the node. -/
def upTo (opens : Text → Bool) : List Text → List Text → Option (List Text)
  | [], _ => none
  | l :: up, acc => if opens l then some (l :: acc) else upTo opens up (l :: acc)

/-- Comments with an opening and a closing mark (analysis.rs:156-178, 291-312, 342-362), of the lines above a node, the nearest
first. -/
def blockDoc (opens : Text → Bool) (close : Text) (clean : Text → Text) (up : List Text) : Option Text :=
  match up with
  | [] => none
  | l :: _ =>
    if endsWith (trim l) close then
      (upTo opens up []).map fun ls => joined ((ls.map clean).filter fun t => !t.isEmpty)
    else none

/-- analysis.rs:160, 295. -/
def opensC (l : Text) : Bool := startsWith (trim l) "/**".toList || startsWith (trim l) "/*".toList

/-- analysis.rs:164-169, 299-304. -/
def cleanC (l : Text) : Text :=
  trim (stripEnd "*/".toList ((stripStart "/*".toList (stripStart "/**".toList (trim l))).dropWhile fun c => c == '*'))

/-- analysis.rs:346. -/
def opensMl (l : Text) : Bool := startsWith (trim l) "(**".toList

/-- analysis.rs:350-354. -/
def cleanMl (l : Text) : Text :=
  trim (stripEnd "*)".toList (stripStart "(*".toList (stripStart "(**".toList (trim l))))

/-- The lines above a row, the nearest first. `lines.get(i)?` gives up at the first access if there are fewer lines than
rows. -/
def above (lines : List Text) (row : Nat) : Option (List Text) :=
  if row ≤ lines.length then some (lines.take row).reverse else none

/-- Python, analysis.rs:102-121. The range is `start..=end.min(lines.len() - 1)`; without any line, `lines.len() - 1` is
an overflow, or the slice is out of range: a panic. -/
def pythonDoc (n : DNode) (lines : List Text) : Res (Option Text) :=
  match n.byField "body" with
  | none => .ok none
  | some body =>
    match body.children.head? with
    | none => .ok none
    | some stmt =>
      if stmt.info.kind = "expression_statement" then
        match stmt.children.head? with
        | none => .ok none
        | some e =>
          if e.info.kind = "string" then
            if lines.isEmpty then .error .panic
            else
              match slice lines e.info.first (min e.info.last (lines.length - 1) + 1) with
              | .error p => .error p
              | .ok ls => .ok (some (trim (trimMatches (fun c => c == '"' || c == '\'') (joinNl ls))))
          else .ok none
      else .ok none

/-- The languages with comments like `/** … */`, analysis.rs:144-152. -/
def blockLang : Language → Bool
  | .javascript | .typescript | .vue | .svelte | .java | .csharp | .kotlin | .scala | .php => true
  | _ => false

/-- The loops above, of the lines above the node. -/
def docAbove (lang : Language) (up : List Text) : Option Text :=
  match lang with
  | .rust => nonEmptyDoc (lineLoop "///".toList ["//!".toList, "#[".toList] up [])
  | .haskell => nonEmptyDoc (haskellLoop up [])
  | .elixir => elixirLoop up
  | .swift => nonEmptyDoc (lineLoop "///".toList [] up [])
  | .go => nonEmptyDoc (lineLoop "//".toList [] up [])
  | .c | .cpp =>
    match nonEmptyDoc (lineLoop "///".toList [] up []) with
    | some d => some d
    | none => blockDoc opensC "*/".toList cleanC up
  | .ruby => nonEmptyDoc (lineLoop ['#'] [] up [])
  | .ocaml => blockDoc opensMl "*)".toList cleanMl up
  | .lua => nonEmptyDoc (if (luaLoop up [] false).2 then (luaLoop up [] false).1 else [])
  | lang => if blockLang lang then blockDoc opensC "*/".toList cleanC up else none

/-- `extract_docstring`, analysis.rs:99-400. -/
def docstring (lang : Language) (n : DNode) (lines : List Text) : Res (Option Text) :=
  if lang = .python then pythonDoc n lines
  else .ok ((above lines n.info.first).bind (docAbove lang))

end NextPlaid.Docs
