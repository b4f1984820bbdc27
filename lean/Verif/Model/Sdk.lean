import Verif.Model.Scan

/-!
Model of the Python package of the parser, /repo/colgrep/python-sdk/src/lib.rs, with `FromStr for Language`
(/repo/colgrep/src/parser/types.rs:51-100).

Text is a list of characters. What the parser extracts from a file (`extract`), the text built for embedding (a field of the
unit here) and the lower case of a text (`low`) are parameters. The sum of complexities is not bounded.
-/

namespace NextPlaid.Sdk
open NextPlaid.Scan

abbrev Text := List Char

/-- `PyCodeUnit`: lib.rs:14-62. -/
structure CodeUnit where
  name : Text
  qualifiedName : Text
  file : Text
  line : Nat
  endLine : Nat
  language : Text
  unitType : Text
  signature : Text
  docstring : Option Text
  parameters : List Text
  returnType : Option Text
  extends_ : Option Text
  parentClass : Option Text
  calls : List Text
  calledBy : List Text
  complexity : Nat
  hasLoops : Bool
  hasBranches : Bool
  hasErrorHandling : Bool
  variables_ : List Text
  imports : List Text
  code : Text
  embeddingText : Text
  deriving DecidableEq

/-- One step of a stable sort by line. -/
def insertByLine (u : CodeUnit) : List CodeUnit → List CodeUnit
  | [] => [u]
  | v :: l => if u.line ≤ v.line then u :: v :: l else v :: insertByLine u l

/-- `sort_by_key(|u| u.line)`, which is stable: lib.rs:194. -/
def sortByLine : List CodeUnit → List CodeUnit
  | [] => []
  | u :: l => insertByLine u (sortByLine l)

/-- `dedup_ordered`: lib.rs:197-207; `seen` holds the items that were pushed. -/
def dedupOrdered (seen : List Text) : List Text → List Text
  | [] => []
  | x :: l => if seen.contains x then dedupOrdered seen l else x :: dedupOrdered (x :: seen) l

/-- `join("\n\n")`. -/
def join : List Text → Text
  | [] => []
  | [x] => x
  | x :: y :: l => x ++ ['\n', '\n'] ++ join (y :: l)

/-- lib.rs:235-239, the docstrings that are not empty. -/
def docstrings (l : List CodeUnit) : List Text :=
  l.flatMap fun u => (u.docstring.toList).filter fun d => !d.isEmpty

/-- The unit returned when there is none: lib.rs:161-187. -/
def emptyUnit (filename : Text) : CodeUnit where
  name := filename
  qualifiedName := filename
  file := filename
  line := 1
  endLine := 1
  language := "Unknown".toList
  unitType := "Document".toList
  signature := []
  docstring := none
  parameters := []
  returnType := none
  extends_ := none
  parentClass := none
  calls := []
  calledBy := []
  complexity := 1
  hasLoops := false
  hasBranches := false
  hasErrorHandling := false
  variables_ := []
  imports := []
  code := []
  embeddingText := []

/-- lib.rs:209-296, the units in the order of their lines, of which `first` is the first and `last` the last one. -/
def mergeSorted (filename : Text) (first last : CodeUnit) (l : List CodeUnit) : CodeUnit where
  name := filename
  qualifiedName := filename ++ "::merged".toList
  file := first.file
  line := first.line
  endLine := last.endLine
  language := first.language
  unitType := "Document".toList
  signature := first.signature
  docstring := if (docstrings l).isEmpty then none else some (join (dedupOrdered [] (docstrings l)))
  parameters := dedupOrdered [] (l.flatMap (·.parameters))
  returnType := none
  extends_ := none
  parentClass := none
  calls := dedupOrdered [] (l.flatMap (·.calls))
  calledBy := dedupOrdered [] (l.flatMap (·.calledBy))
  complexity := l.foldl (fun n u => n + u.complexity) 0
  hasLoops := l.foldl (fun b u => b || u.hasLoops) false
  hasBranches := l.foldl (fun b u => b || u.hasBranches) false
  hasErrorHandling := l.foldl (fun b u => b || u.hasErrorHandling) false
  variables_ := dedupOrdered [] (l.flatMap (·.variables_))
  imports := dedupOrdered [] (l.flatMap (·.imports))
  code := join (l.map (·.code))
  embeddingText := join (l.map (·.embeddingText))

/-- `merge_units`: lib.rs:160-297. -/
def mergeUnits (units : List CodeUnit) (filename : Text) : CodeUnit :=
  match units with
  | [] => emptyUnit filename
  | [u] => u
  | _ => mergeSorted filename ((sortByLine units).headD (emptyUnit filename))
      ((sortByLine units).getLastD (emptyUnit filename)) (sortByLine units)

/-- `impl Debug for Language` (derived), as in `format!("{:?}", unit.language)`: lib.rs:128 and 467. -/
def debugName : Language → Text
  | .python => "Python".toList
  | .typescript => "TypeScript".toList
  | .javascript => "JavaScript".toList
  | .go => "Go".toList
  | .rust => "Rust".toList
  | .java => "Java".toList
  | .c => "C".toList
  | .cpp => "Cpp".toList
  | .ruby => "Ruby".toList
  | .csharp => "CSharp".toList
  | .kotlin => "Kotlin".toList
  | .swift => "Swift".toList
  | .scala => "Scala".toList
  | .php => "Php".toList
  | .lua => "Lua".toList
  | .elixir => "Elixir".toList
  | .haskell => "Haskell".toList
  | .ocaml => "Ocaml".toList
  | .r => "R".toList
  | .zig => "Zig".toList
  | .julia => "Julia".toList
  | .sql => "Sql".toList
  | .vue => "Vue".toList
  | .svelte => "Svelte".toList
  | .css => "Css".toList
  | .qml => "Qml".toList
  | .html => "Html".toList
  | .markdown => "Markdown".toList
  | .text => "Text".toList
  | .asciidoc => "AsciiDoc".toList
  | .org => "Org".toList
  | .yaml => "Yaml".toList
  | .toml => "Toml".toList
  | .json => "Json".toList
  | .shell => "Shell".toList
  | .powershell => "Powershell".toList
  | .dockerfile => "Dockerfile".toList
  | .makefile => "Makefile".toList

/-- The `match` of `FromStr for Language`: /repo/colgrep/src/parser/types.rs:55-98. -/
def byLanguageName (s : Text) : Option Language :=
  match String.ofList s with
  | "python" | "py" => some .python
  | "typescript" | "ts" => some .typescript
  | "javascript" | "js" => some .javascript
  | "go" => some .go
  | "rust" | "rs" => some .rust
  | "java" => some .java
  | "c" => some .c
  | "cpp" | "c++" => some .cpp
  | "ruby" | "rb" => some .ruby
  | "csharp" | "c#" | "cs" => some .csharp
  | "kotlin" | "kt" => some .kotlin
  | "swift" => some .swift
  | "scala" => some .scala
  | "php" => some .php
  | "lua" => some .lua
  | "elixir" | "ex" => some .elixir
  | "haskell" | "hs" => some .haskell
  | "ocaml" | "ml" => some .ocaml
  | "r" => some .r
  | "zig" => some .zig
  | "julia" | "jl" => some .julia
  | "sql" => some .sql
  | "vue" => some .vue
  | "svelte" => some .svelte
  | "css" => some .css
  | "qml" => some .qml
  | "html" | "htm" => some .html
  | "markdown" | "md" => some .markdown
  | "text" | "txt" => some .text
  | "yaml" | "yml" => some .yaml
  | "toml" => some .toml
  | "json" => some .json
  | "dockerfile" => some .dockerfile
  | "makefile" => some .makefile
  | "shell" | "sh" | "bash" => some .shell
  | "powershell" | "ps1" => some .powershell
  | "asciidoc" | "adoc" => some .asciidoc
  | "org" => some .org
  | _ => none

/-- `FromStr for Language`: /repo/colgrep/src/parser/types.rs:54-99. -/
def fromStr (low : Text → Text) (s : Text) : Option Language := byLanguageName (low s)

/-- `supported_languages`: lib.rs:475-510. -/
def supportedLanguages : List Text :=
  ["python", "typescript", "javascript", "go", "rust", "java", "c", "cpp", "ruby", "csharp", "kotlin", "swift", "scala", "php",
   "lua", "elixir", "haskell", "ocaml", "r", "zig", "julia", "sql", "vue", "svelte", "html", "markdown", "yaml", "toml", "json",
   "shell"].map String.toList

/-- `detect_language` of the package, of the last component of the name: lib.rs:464-468. -/
def detectLanguage (low : Text → Text) (filename : Text) : Option Text := (detect low filename).map debugName

/-- What both parsing functions do with the units of the file: lib.rs:355-362 and 437-444. -/
def finish (units : List CodeUnit) (filename : Text) (merge : Bool) : List CodeUnit :=
  if merge then [mergeUnits units filename] else units

/-- `parse_code`: lib.rs:342-363; `none` is the `ValueError`. -/
def parseCode (low : Text → Text) (extract : Text → Text → Language → List CodeUnit) (code filename : Text) (merge : Bool) :
    Option (List CodeUnit) :=
  match detect low filename with
  | none => none
  | some lang => some (finish (extract filename code lang) filename merge)

/-- `parse_code_with_language`: lib.rs:420-446. -/
def parseCodeWithLanguage (low : Text → Text) (extract : Text → Text → Language → List CodeUnit) (code filename language : Text)
    (merge : Bool) : Option (List CodeUnit) :=
  match fromStr low language with
  | none => none
  | some lang => some (finish (extract filename code lang) filename merge)

end NextPlaid.Sdk
