import Verif.Model.Facts
import Verif.Model.TextQuery

/-!
Which modules a file imports, which of them a piece of code uses: `extract_file_imports` and `extract_used_modules` of
`/repo/colgrep/src/parser/analysis.rs` and the filter in `/repo/colgrep/src/parser/extract.rs`.

`char::is_alphabetic`, `char::is_alphanumeric` and `str::to_lowercase` are parameters.
-/

namespace NextPlaid.Imports

open Units (Text trim isWs startsWith containsText)
open Facts (Nd afterDot sortDedup)
open Scan (Language)

/-- `char::is_alphabetic`, `char::is_alphanumeric`, `str::to_lowercase`. -/
structure Tables where
  alpha : Char → Bool
  alnum : Char → Bool
  lower : Text → Text

/-- The kinds of nodes that import, analysis.rs:765-785. -/
def importKinds : Language → List String
  | .python => ["import_statement", "import_from_statement"]
  | .rust => ["use_declaration"]
  | .typescript | .javascript | .vue | .svelte => ["import_statement"]
  | .go => ["import_spec"]
  | .java => ["import_declaration"]
  | .csharp => ["using_directive"]
  | .c | .cpp => ["preproc_include"]
  | .ruby => ["call"]
  | .kotlin => ["import"]
  | .swift => ["import_declaration"]
  | .scala => ["import_declaration"]
  | .php => ["namespace_use_declaration"]
  | .lua => ["function_call"]
  | .elixir => ["call"]
  | .haskell => ["import"]
  | .ocaml => ["open_module"]
  | _ => []

mutual
/-- The recursive helpers `find_string_content`, `find_module_name` and `find_type_identifier`: the first node of a kind,
in the order of the text. The number is what is left of the allowed depth, plus one. analysis.rs:856-878, 892-915, 926-946,
1062-1082, 1110-1127. -/
def seek (kinds : List String) : Nat → Nd → Option Nd
  | 0, _ => none
  | d + 1, .mk i cs => if kinds.contains i.kind then some (.mk i cs) else seekAll kinds d cs
def seekAll (kinds : List String) : Nat → List Nd → Option Nd
  | _, [] => none
  | d, c :: cs => (seek kinds d c).or (seekAll kinds d cs)
end

/-- A text that is not empty. -/
def nonEmpty : Text → Option Text
  | [] => none
  | c :: cs => some (c :: cs)

/-- `split('/').next_back()`. -/
def afterSlash (t : Text) : Text := (t.reverse.takeWhile fun c => c != '/').reverse

/-- `split("::").next()`: up to the first `::`. -/
def beforeColons : Text → Text
  | [] => []
  | [c] => [c]
  | c :: d :: t => if c = ':' ∧ d = ':' then [] else c :: beforeColons (d :: t)

/-- Does a word begin with one of the keywords? analysis.rs:960-965. -/
def keywordLike (w : Text) : Bool :=
  startsWith w "import".toList || startsWith w "from".toList || startsWith w "use".toList || startsWith w "using".toList

/-- The path in the text of an import, analysis.rs:955-967: the first word that does not begin with a keyword, or else the
whole text, without what is around letters, digits, underscores and full stops. -/
def importPath (u : Tables) (text : Text) : Text :=
  NextPlaid.Text.trimMatches (fun c => !u.alnum c && c != '_' && c != '.')
    (((NextPlaid.Text.splitWhite isWs [] (trim text)).find? fun w => !keywordLike w).getD (trim text))

/-- The module that is imported, analysis.rs:969-990: the last component in Java, Kotlin, Scala and C#, the first one
elsewhere. -/
def moduleOf (u : Tables) (lang : Language) (text : Text) : Option Text :=
  if lang = .java ∨ lang = .kotlin ∨ lang = .scala ∨ lang = .csharp then nonEmpty (afterDot (importPath u text))
  else nonEmpty ((beforeColons (importPath u text)).takeWhile fun c => c != '.')

/-- Ruby, analysis.rs:801-828: the string that is required. -/
def rubyImport (n : Nd) : Option Text :=
  if (n.byField "method").any fun m => m.text != "require".toList && m.text != "require_relative".toList then none
  else (n.byField "arguments").bind fun a =>
    (a.children.find? fun c => c.kind == "string" || c.kind == "string_content").bind fun c =>
      nonEmpty (afterSlash (NextPlaid.Text.trimMatches (fun x => x == '\'' || x == '"') c.text))

/-- Lua, analysis.rs:832-852: is the callee a name other than `require`? -/
def luaOther (n : Nd) : Bool := n.first.any fun f => f.kind == "identifier" && f.text != "require".toList

/-- Lua, analysis.rs:854-886. -/
def luaImport (maxDepth : Nat) (n : Nd) : Option Text :=
  (n.byField "arguments").bind fun a => (seek ["string_content"] (maxDepth + 1) a).bind fun s => nonEmpty s.text

/-- Go, analysis.rs:889-922. -/
def goImport (maxDepth : Nat) (n : Nd) : Option Text :=
  (seek ["interpreted_string_literal_content"] (maxDepth + 1) n).bind fun s => nonEmpty (afterSlash s.text)

/-- OCaml, analysis.rs:925-952. -/
def ocamlImport (maxDepth : Nat) (n : Nd) : Option Text :=
  (seek ["module_name"] (maxDepth + 1) n).bind fun s => nonEmpty s.text

/-- What an import adds to the list. -/
def importAt (u : Tables) (lang : Language) (maxDepth : Nat) (n : Nd) : Option Text :=
  match lang with
  | .ruby => rubyImport n
  | .lua => if luaOther n then none else luaImport maxDepth n
  | .go => goImport maxDepth n
  | .ocaml => ocamlImport maxDepth n
  | _ => moduleOf u lang n.text

/-- Are the children of an import visited too? Not in Ruby, Go and OCaml, nor below a `require` in Lua. -/
def goesOn (lang : Language) (n : Nd) : Bool :=
  match lang with
  | .ruby | .go | .ocaml => false
  | .lua => luaOther n
  | _ => true

mutual
/-- `visit`, analysis.rs:787-1003. The number is what is left of the allowed depth, plus one. -/
def visit (u : Tables) (lang : Language) (maxDepth : Nat) : Nat → Nd → List Text
  | 0, _ => []
  | d + 1, .mk i cs =>
    if (importKinds lang).contains i.kind then
      (importAt u lang maxDepth (.mk i cs)).toList ++
        (if goesOn lang (.mk i cs) then visitAll u lang maxDepth d cs else [])
    else visitAll u lang maxDepth d cs
def visitAll (u : Tables) (lang : Language) (maxDepth : Nat) : Nat → List Nd → List Text
  | _, [] => []
  | d, c :: cs => visit u lang maxDepth d c ++ visitAll u lang maxDepth d cs
end

/-- `extract_file_imports`, analysis.rs:763-1010. -/
def fileImports (u : Tables) (lang : Language) (maxDepth : Nat) (root : Nd) : List Text :=
  if importKinds lang = [] then [] else sortDedup (visit u lang maxDepth (maxDepth + 1) root)

/-! ### Modules that are used -/

/-- The kinds of nodes that access something, analysis.rs:1016-1041. -/
def accessKinds : Language → List String
  | .python => ["attribute"]
  | .javascript | .typescript | .vue | .svelte => ["member_expression"]
  | .rust => ["field_expression", "scoped_identifier"]
  | .go => ["selector_expression"]
  | .java | .csharp => ["field_access", "member_access_expression", "object_creation_expression"]
  | .scala => ["field_expression"]
  | .kotlin => ["navigation_expression"]
  | .c | .cpp => ["field_expression"]
  | .ruby => ["call"]
  | .swift => ["navigation_expression"]
  | .php => ["member_access_expression", "scoped_call_expression", "object_creation_expression"]
  | .lua => ["dot_index_expression", "method_index_expression"]
  | .ocaml => ["field_get_expression", "value_path"]
  | _ => []

/-- What is accessed, analysis.rs:1094-1131. -/
def baseOf (lang : Language) (maxDepth : Nat) (n : Nd) : Option Nd :=
  match lang with
  | .python | .javascript | .typescript | .vue | .svelte => n.byField "object"
  | .rust | .scala => n.byField "value"
  | .go => n.byField "operand"
  | .java | .csharp => (n.byField "object").or (n.byField "expression")
  | .kotlin => n.firstNamed
  | .ruby => n.byField "receiver"
  | .ocaml => seek ["module_name"] (maxDepth + 1) n
  | _ => n.first

/-- analysis.rs:1135-1139. -/
def simpleKinds : List String := ["identifier", "constant", "simple_identifier", "module_name"]

/-- analysis.rs:1141-1155. -/
def baseName (u : Tables) (t : Text) : Option Text :=
  match trim t with
  | [] => none
  | c :: cs =>
    if c :: cs ≠ "self".toList ∧ c :: cs ≠ "this".toList ∧ c :: cs ≠ "super".toList ∧ u.alpha c = true then some (c :: cs)
    else none

/-- What one node adds, analysis.rs:1055-1160. -/
def usedAt (u : Tables) (lang : Language) (maxDepth : Nat) (n : Nd) : Option Text :=
  if (accessKinds lang).contains n.kind then
    if n.kind = "object_creation_expression" then
      (seek ["type_identifier", "identifier", "name"] (maxDepth + 1) n).bind fun m => nonEmpty (trim m.text)
    else (baseOf lang maxDepth n).bind fun m => if simpleKinds.contains m.kind then baseName u m.text else none
  else none

mutual
/-- `visit`, analysis.rs:1043-1172. -/
def visitUsed (u : Tables) (lang : Language) (maxDepth : Nat) : Nat → Nd → List Text
  | 0, _ => []
  | d + 1, .mk i cs => (usedAt u lang maxDepth (.mk i cs)).toList ++ visitUsedAll u lang maxDepth d cs
def visitUsedAll (u : Tables) (lang : Language) (maxDepth : Nat) : Nat → List Nd → List Text
  | _, [] => []
  | d, c :: cs => visitUsed u lang maxDepth d c ++ visitUsedAll u lang maxDepth d cs
end

/-- `extract_used_modules`, analysis.rs:1014-1178. -/
def usedModules (u : Tables) (lang : Language) (maxDepth : Nat) (root : Nd) : List Text :=
  sortDedup (visitUsed u lang maxDepth (maxDepth + 1) root)

/-- The imports of a unit, /repo/colgrep/src/parser/extract.rs:66-82. -/
def unitImports (u : Tables) (file used calls : List Text) : List Text :=
  file.filter fun i =>
    (used.any fun m => u.lower m == u.lower i) ||
    calls.any fun c => containsText (u.lower i) (u.lower c) || containsText (u.lower c) (u.lower i)

end NextPlaid.Imports
