/-!
Model of the choice of files that colgrep indexes: /repo/colgrep/src/index/mod.rs:2690-2945, the choice in `index_specific_files`
(1764-1820), and /repo/colgrep/src/parser/language.rs:8-66.

Simplified: names are sequences of characters (valid UTF-8); entries that cannot be read are left out; what `.gitignore` and the
like exclude is a parameter (`git`, of a path and whether it is a directory); so is the lower case of a name.
-/

namespace NextPlaid.Scan

/-- The name of a file or directory. -/
abbrev Name := List Char

/-- A component of a path. -/
inductive Comp where
  | name (n : Name)
  | up
deriving DecidableEq, Repr

/-- Files with their sizes, symbolic links, directories. -/
inductive Tree where
  | file (size : Nat)
  | link (abs : Bool) (to : List Comp)
  | dir (es : List (Name × Tree))

def Tree.isDir : Tree → Bool
  | .dir _ => true
  | _ => false

/-! ### Languages -/

inductive Language where
  | python | typescript | javascript | go | rust | java | c | cpp | ruby | csharp | kotlin | swift | scala | php | lua | elixir
  | haskell | ocaml | r | zig | julia | sql | vue | svelte | css | qml | html | markdown | text | asciidoc | org | yaml | toml
  | json | shell | powershell | dockerfile | makefile
deriving DecidableEq, Repr

/-- `Path::extension`: what follows the last `.`, unless that is the first character. -/
def extension (n : Name) : Option (List Char) :=
  match n.reverse.dropWhile (fun c => decide (c ≠ '.')) with
  | [] => none
  | [_] => none
  | _ :: _ :: _ => some (n.reverse.takeWhile (fun c => decide (c ≠ '.'))).reverse

/-- The `match` on the extension, language.rs:20-65. -/
def byExtension (e : List Char) : Option Language :=
  match String.ofList e with
  | "py" => some .python
  | "ts" | "tsx" => some .typescript
  | "js" | "jsx" | "mjs" => some .javascript
  | "go" => some .go
  | "rs" => some .rust
  | "java" => some .java
  | "c" | "h" => some .c
  | "cpp" | "cc" | "cxx" | "hpp" | "hxx" => some .cpp
  | "rb" => some .ruby
  | "cs" => some .csharp
  | "kt" | "kts" => some .kotlin
  | "swift" => some .swift
  | "scala" | "sc" => some .scala
  | "php" => some .php
  | "lua" => some .lua
  | "ex" | "exs" => some .elixir
  | "hs" => some .haskell
  | "ml" | "mli" => some .ocaml
  | "r" | "rmd" => some .r
  | "zig" => some .zig
  | "jl" => some .julia
  | "sql" => some .sql
  | "vue" => some .vue
  | "svelte" => some .svelte
  | "css" => some .css
  | "qml" => some .qml
  | "html" | "htm" => some .html
  | "md" | "markdown" => some .markdown
  | "txt" | "text" | "rst" => some .text
  | "adoc" | "asciidoc" => some .asciidoc
  | "org" => some .org
  | "yaml" | "yml" => some .yaml
  | "toml" => some .toml
  | "json" => some .json
  | "sh" | "bash" | "zsh" => some .shell
  | "ps1" => some .powershell
  | _ => none

/-- language.rs:12-16. -/
def byName (n : List Char) : Option Language :=
  match String.ofList n with
  | "dockerfile" => some .dockerfile
  | "makefile" | "gnumakefile" => some .makefile
  | _ => none

/-- `detect_language`, of the last component of the path: language.rs:8-66. -/
def detect (low : List Char → List Char) (n : Name) : Option Language :=
  match byName (low n) with
  | some l => some l
  | none => (extension n).bind fun e => byExtension (low e)

/-! ### Ignored paths -/

/-- `IGNORED_DIRS`: mod.rs:2780-2843. -/
def ignoredDirs : List Name :=
  [".git", ".svn", ".hg", "node_modules", "vendor", "third_party", "third-party", "external", "target", "build", "dist", "out", "bin",
    "obj", "__pycache__", ".venv", "venv", ".env", "env", ".tox", ".nox", ".pytest_cache", ".mypy_cache", ".ruff_cache", "*.egg-info",
    ".eggs", ".next", ".nuxt", ".output", ".cache", ".parcel-cache", ".turbo", "target", "go.sum", ".gradle", ".m2", ".idea", ".vscode",
    ".vs", "*.xcworkspace", "*.xcodeproj", "coverage", ".coverage", "htmlcov", ".nyc_output", "tmp", "temp", "logs",
    ".DS_Store"].map String.toList

/-- `ALLOWED_HIDDEN_DIRS`, `ALLOWED_HIDDEN_FILES`: mod.rs:2846-2857. -/
def allowedHidden : List Name :=
  [".github", ".gitlab", ".circleci", ".buildkite", ".claude", ".claude-plugin", ".gitlab-ci.yml", ".gitlab-ci.yaml", ".travis.yml"].map
    String.toList

/-- A pattern and one component: `*` at its beginning stands for anything. -/
def fits (pat : List Char) (n : Name) : Bool :=
  match pat with
  | '*' :: suf => suf.isSuffixOf n
  | _ => n == pat

/-- A force-include pattern and the whole path: mod.rs:2887-2895. -/
def fitsPath (pat path : List Char) : Bool :=
  match pat with
  | '*' :: suf => suf.isSuffixOf path
  | _ => path == pat || (pat ++ ['/']).isPrefixOf path

/-- What is checked of one component: mod.rs:2903-2940. -/
def barred (extra force : List (List Char)) (n : Name) : Bool :=
  if force.any (fits · n) then false
  else if n.head? == some '.' && !allowedHidden.contains n then true
  else if ignoredDirs.any (fits · n) then true
  else extra.any (fits · n)

/-- `should_ignore`, of the text of a path and its names: mod.rs:2882-2945. -/
def shouldIgnore (extra force : List (List Char)) (str : List Char) (names : List Name) : Bool :=
  if force.any (fitsPath · str) then false else names.any (barred extra force)

/-- The text of a relative path. -/
def pathStr (p : List Name) : List Char := List.intercalate ['/'] p

/-! ### Paths in the file system -/

/-- What is at a path without links. -/
def Tree.get : Tree → List Name → Option Tree
  | t, [] => some t
  | .dir es, n :: p =>
    match es.find? fun e => e.1 = n with
    | some (_, t) => t.get p
    | none => none
  | _, _ :: _ => none

/-- The place a path leads to, up to the first link, which is left to `onLink`. -/
def follow (fs : Tree) (onLink : List Name → List Comp → Option (List Name)) : List Name → List Comp → Option (List Name)
  | cur, [] => some cur
  | cur, .up :: r =>
    match fs.get cur with
    | some (.dir _) => follow fs onLink cur.dropLast r
    | _ => none
  | cur, .name n :: r =>
    match fs.get (cur ++ [n]) with
    | none => none
    | some (.link abs to) => onLink (if abs then [] else cur) (to ++ r)
    | some _ => follow fs onLink (cur ++ [n]) r

/-- `canonicalize`: the place a path leads to, following at most so many links. -/
def resolve (fs : Tree) : Nat → List Name → List Comp → Option (List Name)
  | 0 => follow fs fun _ _ => none
  | f + 1 => follow fs fun cur r => resolve fs f cur r

/-- The number of links the system follows. -/
def maxLinks : Nat := 40

/-- A path as an argument. -/
structure Arg where
  abs : Bool
  comps : List Comp
deriving DecidableEq, Repr

def Comp.str : Comp → List Char
  | .name n => n
  | .up => ['.', '.']

/-- The text of an argument. -/
def Arg.str (a : Arg) : List Char := (if a.abs then ['/'] else []) ++ List.intercalate ['/'] (a.comps.map Comp.str)

/-- The `Normal` components. -/
def Arg.names (a : Arg) : List Name := a.comps.filterMap fun
  | .name n => some n
  | .up => none

/-- `project_root.join(path)`: an absolute path replaces the root. -/
def Arg.full (root : List Comp) (a : Arg) : List Comp := if a.abs then a.comps else root ++ a.comps

/-- Whether a text contains `..`. -/
def hasDots : List Char → Bool
  | '.' :: '.' :: _ => true
  | _ :: s => hasDots s
  | [] => false

/-- `is_within_project_root`: mod.rs:2761-2777. -/
def within (fs : Tree) (root : List Comp) (a : Arg) : Bool :=
  if !hasDots a.str then true
  else
    match resolve fs maxLinks [] (a.full root) with
    | none => false
    | some q =>
      match resolve fs maxLinks [] root with
      | none => false
      | some r => r.isPrefixOf q

/-! ### The walk -/

mutual
/-- The walk over a project (`WalkBuilder` with `follow_links(false)` and `filter_entry`), mod.rs:2696-2719: the files found, with
their sizes.  `keep` tells whether an entry is looked at. -/
def walk (keep : List Name → Bool → Bool) (pre : List Name) : Tree → List (List Name × Nat)
  | .file n => [(pre, n)]
  | .link _ _ => []
  | .dir es => walkAll keep pre es
def walkAll (keep : List Name → Bool → Bool) (pre : List Name) : List (Name × Tree) → List (List Name × Nat)
  | [] => []
  | (n, t) :: es => (if keep (pre ++ [n]) t.isDir then walk keep (pre ++ [n]) t else []) ++ walkAll keep pre es
end

/-- `MAX_FILE_SIZE`: mod.rs:42. -/
def maxFileSize : Nat := 512 * 1024

/-- What the choice depends on. -/
structure Rules where
  git : List Name → Bool → Bool
  extra : List (List Char)
  force : List (List Char)
  low : List Char → List Char
  selected : Language → Bool

/-- `filter_entry`, and the rules of git: mod.rs:2698-2709. -/
def Rules.keep (u : Rules) (p : List Name) (isDir : Bool) : Bool := !u.git p isDir && !shouldIgnore u.extra u.force (pathStr p) p

/-- The relative path of a file that was found. -/
def relative (p : List Name) : Arg := ⟨false, p.map .name⟩

/-- What becomes of a file that was found (`some true`: indexed, `some false`: counted as skipped): mod.rs:2722-2744. -/
def verdict (u : Rules) (fs : Tree) (root : List Comp) (e : List Name × Nat) : Option Bool :=
  if maxFileSize < e.2 then some false
  else
    match e.1.getLast?.bind (detect u.low) with
    | none => none
    | some l => if u.selected l then some (within fs root (relative e.1)) else none

/-- `scan_files`: mod.rs:2690-2747. -/
def scan (u : Rules) (fs : Tree) (root : List Comp) : List (List Name) × Nat :=
  match (resolve fs maxLinks [] root).bind fs.get with
  | none => ([], 0)
  | some t =>
    let found := walk u.keep [] t
    ((found.filter fun e => verdict u fs root e == some true).map (·.1), (found.filter fun e => verdict u fs root e == some false).length)

/-- The paths that `index_specific_files` reads, of those it is given: mod.rs:1789-1820; `git` there is of the whole path.  That a
file whose hash is recorded is not read again is left out (see C49). -/
def specific (u : Rules) (fs : Tree) (root : List Comp) (gitArg : Arg → Bool) (args : List Arg) : List Arg :=
  args.filter fun a =>
    within fs root a && (resolve fs maxLinks [] (a.full root)).isSome && !shouldIgnore u.extra u.force a.str a.names && !gitArg a

/-- `path_contains_ignored_dir`: mod.rs:2859-2873. -/
def containsIgnored (names : List Name) : Option Name :=
  names.findSome? fun n => ignoredDirs.find? fun pat => pat.head? != some '*' && n == pat

end NextPlaid.Scan
