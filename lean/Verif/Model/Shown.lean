import Verif.Model.Json
import Verif.Model.Records

/-!
How colgrep stores a code unit in the metadata of its index and makes a search result of the row it reads back:
`CodeUnit` (/repo/colgrep/src/parser/types.rs:103-152), `run_metadata_stage` (/repo/colgrep/src/index/mod.rs:822-843),
`search_with_embedding` (4044-4073), the same steps of `search_hybrid_with_embedding` (4197-4233) and `fix_sqlite_types`
(4415-4441).

Text is a list of characters; a path is its text (a path that is not Unicode cannot be stored).
-/

namespace NextPlaid.Shown
open NextPlaid NextPlaid.Db NextPlaid.Json NextPlaid.JsonText NextPlaid.Records

abbrev Text := List Char

/-- `Language`: /repo/colgrep/src/parser/types.rs:5-47. -/
inductive Language where
  | python | typescript | javascript | go | rust | java | c | cpp | ruby | csharp | kotlin | swift | scala | php | lua | elixir
  | haskell | ocaml | r | zig | julia | sql | vue | svelte | qml | css | html | markdown | text | yaml | toml | json
  | dockerfile | makefile | shell | powershell | asciidoc | org
  deriving DecidableEq

/-- The names under `#[serde(rename_all = "lowercase")]`. -/
def languages : List (Language × String) :=
  [(.python, "python"), (.typescript, "typescript"), (.javascript, "javascript"), (.go, "go"), (.rust, "rust"), (.java, "java"),
   (.c, "c"), (.cpp, "cpp"), (.ruby, "ruby"), (.csharp, "csharp"), (.kotlin, "kotlin"), (.swift, "swift"), (.scala, "scala"),
   (.php, "php"), (.lua, "lua"), (.elixir, "elixir"), (.haskell, "haskell"), (.ocaml, "ocaml"), (.r, "r"), (.zig, "zig"),
   (.julia, "julia"), (.sql, "sql"), (.vue, "vue"), (.svelte, "svelte"), (.qml, "qml"), (.css, "css"), (.html, "html"),
   (.markdown, "markdown"), (.text, "text"), (.yaml, "yaml"), (.toml, "toml"), (.json, "json"), (.dockerfile, "dockerfile"),
   (.makefile, "makefile"), (.shell, "shell"), (.powershell, "powershell"), (.asciidoc, "asciidoc"), (.org, "org")]

/-- `UnitType`: /repo/colgrep/src/parser/types.rs:102-113. -/
inductive UnitType where
  | function | method | class | constant | document | section | rawcode
  deriving DecidableEq

/-- The names under `#[serde(rename_all = "lowercase")]`. -/
def unitTypes : List (UnitType × String) :=
  [(.function, "function"), (.method, "method"), (.class, "class"), (.constant, "constant"), (.document, "document"),
   (.section, "section"), (.rawcode, "rawcode")]

/-- `CodeUnit`: /repo/colgrep/src/parser/types.rs:115-152. -/
structure CodeUnit where
  name : Text
  qualifiedName : Text
  file : Text
  line : Nat
  endLine : Nat
  language : Language
  unitType : UnitType
  signature : Text
  docstring : Option Text
  parameters : List Text
  returnType : Option Text
  extends_ : Option Text
  parentClass : Option Text
  calls : List Text
  calledBy : List Text
  complexity : Nat
  hasLoops : Bool
  hasBranches : Bool
  hasErrorHandling : Bool
  variables : List Text
  imports : List Text
  code : Text
  deriving DecidableEq

variable {R : Type} (F : Reals R) (G : Floats R)

/-- The name of a variant. -/
def nameOf {α : Type} [DecidableEq α] (l : List (α × String)) (a : α) : Text :=
  ((l.find? fun p => p.1 == a).map fun p => p.2.toList).getD []

/-- `Option<String>` as a value. -/
def optStr : Option Text → Json R
  | none => .null
  | some s => .str s

/-- `Vec<String>` as a value, by its text. -/
def strs (l : List Text) : Json R := .tree (compact F (.arr (l.map .str)))

/-- `serde_json::to_value(unit)`: /repo/colgrep/src/index/mod.rs:830-834. -/
def row (u : CodeUnit) : Item (sql G) :=
  some [("name", .str u.name), ("qualified_name", .str u.qualifiedName), ("file", .str u.file), ("line", .int u.line),
    ("end_line", .int u.endLine), ("language", .str (nameOf languages u.language)), ("unit_type", .str (nameOf unitTypes u.unitType)),
    ("signature", .str u.signature), ("docstring", optStr u.docstring), ("parameters", strs F u.parameters),
    ("return_type", optStr u.returnType), ("extends", optStr u.extends_), ("parent_class", optStr u.parentClass),
    ("calls", strs F u.calls), ("called_by", strs F u.calledBy), ("complexity", .int u.complexity), ("has_loops", .bool u.hasLoops),
    ("has_branches", .bool u.hasBranches), ("has_error_handling", .bool u.hasErrorHandling), ("variables", strs F u.variables),
    ("imports", strs F u.imports), ("code", .str u.code)]

/-- A value read from the database, as JSON (`row_to_json_value` gives no truth values and no trees). -/
def back : Json R → J R
  | .null => .null
  | .bool b => .bool b
  | .int i => .int i
  | .real r => .real r
  | .str s => .str s
  | .tree t => .str t

/-- A text that is the text of an array is replaced by the array: index/mod.rs:4429-4438. -/
def fixText (s : Text) : J R :=
  if s.head? = some '[' then
    match parse F s with
    | some (.arr l) => .arr l
    | _ => .str s
  else .str s

/-- `key.starts_with("has_") || key.starts_with("is_")`: index/mod.rs:4421. -/
def isFlag (key : String) : Bool := "has_".toList.isPrefixOf key.toList || "is_".toList.isPrefixOf key.toList

/-- `as_i64`, then the truth value: index/mod.rs:4422-4426. -/
def fixFlag : J R → J R
  | .int i => if i < 2 ^ 63 then .bool (i != 0) else .int i
  | v => v

/-- `fix_sqlite_types` on one entry: index/mod.rs:4415-4441. -/
def fixValue (key : String) (v : J R) : J R :=
  if isFlag key then fixFlag v
  else
    match v with
    | .str s => fixText F s
    | v => v

/-- An entry of the row after `fix_sqlite_types`. -/
def entryOf (r : OutRow (sql G)) (key : String) : Option (J R) :=
  (r.cols.find? fun p => p.1 == key).map fun p => fixValue F key (back p.2)

/-- A variant by its name. -/
def readName {α : Type} (l : List (α × String)) (v : J R) : Option α :=
  (readStr v).bind fun s => (l.find? fun p => p.2.toList == s).map (·.1)

/-- A field of the record; an absent one is refused. -/
def req {α : Type} (get : String → Option (J R)) (key : String) (read : J R → Option α) : Option α := (get key).bind read

/-- An `Option` field of the record; an absent one is `None`. -/
def opt (get : String → Option (J R)) (key : String) : Option (Option Text) :=
  match get key with
  | none => some none
  | some v => readOpt readStr v

/-- `serde_json::from_value::<CodeUnit>`; unknown entries (`_subset_`) are ignored. -/
def readUnit (get : String → Option (J R)) : Option CodeUnit := do
  let name ← req get "name" readStr
  let qualifiedName ← req get "qualified_name" readStr
  let file ← req get "file" readStr
  let line ← req get "line" readNat
  let endLine ← req get "end_line" readNat
  let language ← req get "language" (readName languages)
  let unitType ← req get "unit_type" (readName unitTypes)
  let signature ← req get "signature" readStr
  let docstring ← opt get "docstring"
  let parameters ← req get "parameters" (readList readStr)
  let returnType ← opt get "return_type"
  let extends_ ← opt get "extends"
  let parentClass ← opt get "parent_class"
  let calls ← req get "calls" (readList readStr)
  let calledBy ← req get "called_by" (readList readStr)
  let complexity ← req get "complexity" readNat
  let hasLoops ← req get "has_loops" readBool
  let hasBranches ← req get "has_branches" readBool
  let hasErrorHandling ← req get "has_error_handling" readBool
  let variables ← req get "variables" (readList readStr)
  let imports ← req get "imports" (readList readStr)
  let code ← req get "code" readStr
  some ⟨name, qualifiedName, file, line, endLine, language, unitType, signature, docstring, parameters, returnType, extends_,
    parentClass, calls, calledBy, complexity, hasLoops, hasBranches, hasErrorHandling, variables, imports, code⟩

/-- The unit made of a row. -/
def unitOf (r : OutRow (sql G)) : Option CodeUnit := readUnit (entryOf F G r)

/-- The end of `search_with_embedding`: index/mod.rs:4056-4072.  `ids` and `scores` are what the index found. -/
def results {S : Type} (order : List (OutRow (sql G)) → List (OutRow (sql G))) (db : Option (Tables (sql G))) (ids : List Int)
    (scores : List S) : Res (List (CodeUnit × S)) := do
  let rows ← get order db none (some ids)
  .ok ((rows.zip scores).filterMap fun p => (unitOf F G p.1).map fun u => (u, p.2))

/-- `meta_by_id`: the rows by their ids, index/mod.rs:4210-4217. -/
def byId (rows : List (OutRow (sql G))) (id : Int) : Option (OutRow (sql G)) := rows.find? fun r => r.subset == id

/-- Each id takes its row out of the map: index/mod.rs:4219-4233, without the penalty. -/
def takeRows {S : Type} : List (OutRow (sql G)) → List (Int × S) → List (CodeUnit × S)
  | _, [] => []
  | rows, (id, score) :: l =>
    match byId G rows id with
    | none => takeRows rows l
    | some r => ((unitOf F G r).map fun u => (u, score)).toList ++ takeRows (rows.filter fun r => r.subset != id) l

/-- The same step of `search_hybrid_with_embedding`: index/mod.rs:4199-4233, without the penalty. -/
def hybrid {S : Type} (order : List (OutRow (sql G)) → List (OutRow (sql G))) (db : Option (Tables (sql G))) (ids : List Int)
    (scores : List S) : Res (List (CodeUnit × S)) := do
  let rows ← get order db none (some ids)
  .ok (takeRows F G rows (ids.zip scores))

end NextPlaid.Shown
