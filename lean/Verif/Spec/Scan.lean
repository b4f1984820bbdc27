import Verif.Model.Scan

/-! Specification of the files that belong into an index. -/

namespace NextPlaid.Spec
open NextPlaid.Scan (Tree Name Comp Language Rules)

/-- There is a regular file at this path of the tree; no links on the way. -/
inductive FileAt : Tree → List Name → Nat → Prop
  | here {size} : FileAt (.file size) [] size
  | under {es n t p size} : (n, t) ∈ es → FileAt t p size → FileAt (.dir es) (n :: p) size

/-- The entries of every directory have different names. -/
inductive Distinct : Tree → Prop
  | file {size} : Distinct (.file size)
  | link {abs to} : Distinct (.link abs to)
  | dir {es : List (Name × Tree)} : (es.map (·.1)).Nodup → (∀ e ∈ es, Distinct e.2) → Distinct (.dir es)

/-- There are no links in the tree. -/
inductive NoLinks : Tree → Prop
  | file {size} : NoLinks (.file size)
  | dir {es : List (Name × Tree)} : (∀ e ∈ es, NoLinks e.2) → NoLinks (.dir es)

/-- A pattern begins with `*`. -/
def Starred (pat : List Char) : Prop := ∃ suf, pat = '*' :: suf

/-- "Any directory or file named so", or, with `*`, "ending in" the rest. -/
def FitsName (pat : List Char) (n : Name) : Prop := (∃ suf, pat = '*' :: suf ∧ suf <:+ n) ∨ (¬ Starred pat ∧ n = pat)

/-- "The path prefix specifically"; with `*`, a path that ends in the rest. -/
def FitsPath (pat : List Char) (path : List Char) : Prop :=
  (∃ suf, pat = '*' :: suf ∧ suf <:+ path) ∨ (¬ Starred pat ∧ (path = pat ∨ pat ++ ['/'] <+: path))

/-- Hidden names that are indexed all the same. -/
def shownNames : List String :=
  [".github", ".gitlab", ".gitlab-ci.yml", ".gitlab-ci.yaml", ".circleci", ".travis.yml", ".buildkite", ".claude", ".claude-plugin"]

/-- Names that are not of sources, other than hidden ones. -/
def builtinNames : List String :=
  ["node_modules", "vendor", "third_party", "third-party", "external", "target", "build", "dist", "out", "bin", "obj", "__pycache__", "venv", "env",
    "*.egg-info", "go.sum", "*.xcworkspace", "*.xcodeproj", "coverage", "htmlcov", "tmp", "temp", "logs"]

/-- A hidden name without exception. -/
def HiddenName (n : Name) : Prop := (∃ r, n = '.' :: r) ∧ ∀ s ∈ shownNames, n ≠ s.toList

/-- A name that is ignored: hidden, or of the built-in list, or of the user's. -/
def IgnoredName (extra : List (List Char)) (n : Name) : Prop :=
  HiddenName n ∨ (∃ s ∈ builtinNames, FitsName s.toList n) ∨ ∃ pat ∈ extra, FitsName pat n

/-- A path that is ignored: no force-include pattern fits the path, and some name of it is ignored which no force-include pattern
fits. -/
def IgnoredPath (extra force : List (List Char)) (q : List Name) : Prop :=
  (¬ ∃ pat ∈ force, FitsPath pat (Scan.pathStr q)) ∧ ∃ n ∈ q, IgnoredName extra n ∧ ¬ ∃ pat ∈ force, FitsName pat n

/-- The documented extensions. -/
def extensions : List (String × Language) :=
  [("py", .python), ("ts", .typescript), ("tsx", .typescript), ("js", .javascript), ("jsx", .javascript), ("mjs", .javascript),
   ("go", .go), ("rs", .rust), ("java", .java), ("c", .c), ("h", .c), ("cpp", .cpp), ("cc", .cpp), ("cxx", .cpp), ("hpp", .cpp),
   ("hxx", .cpp), ("cs", .csharp), ("rb", .ruby), ("kt", .kotlin), ("kts", .kotlin), ("swift", .swift), ("scala", .scala),
   ("sc", .scala), ("php", .php), ("lua", .lua), ("ex", .elixir), ("exs", .elixir), ("hs", .haskell), ("ml", .ocaml), ("mli", .ocaml),
   ("r", .r), ("rmd", .r), ("zig", .zig), ("jl", .julia), ("sql", .sql), ("vue", .vue), ("svelte", .svelte), ("html", .html),
   ("htm", .html), ("css", .css), ("qml", .qml), ("md", .markdown), ("markdown", .markdown), ("txt", .text), ("text", .text),
   ("rst", .text), ("adoc", .asciidoc), ("asciidoc", .asciidoc), ("org", .org), ("yaml", .yaml), ("yml", .yaml), ("toml", .toml),
   ("json", .json), ("sh", .shell), ("bash", .shell), ("zsh", .shell), ("ps1", .powershell)]

/-- Files known by their names. -/
def namedFiles : List (String × Language) := [("dockerfile", .dockerfile), ("makefile", .makefile), ("gnumakefile", .makefile)]

/-- The language of a file: by its name, otherwise by what follows the last dot, which is not the first character; in lower case. -/
def HasLanguage (low : List Char → List Char) (n : Name) (l : Language) : Prop :=
  (∃ s, (s, l) ∈ namedFiles ∧ low n = s.toList) ∨
  ((∀ s l', (s, l') ∈ namedFiles → low n ≠ s.toList) ∧
    ∃ stem ext s, stem ≠ [] ∧ '.' ∉ ext ∧ n = stem ++ '.' :: ext ∧ (s, l) ∈ extensions ∧ low ext = s.toList)

/-- The way to `p` (every directory on it, and the file) is neither excluded by git nor ignored. -/
def WayOpen (u : Rules) (p : List Name) : Prop :=
  ∀ q, q ≠ [] → q <+: p → u.git q (decide (q ≠ p)) = false ∧ ¬ IgnoredPath u.extra u.force q

/-- A file that belongs into the index. -/
def Belongs (u : Rules) (t : Tree) (p : List Name) : Prop :=
  ∃ size n l, FileAt t p size ∧ size ≤ 512 * 1024 ∧ p.getLast? = some n ∧ HasLanguage u.low n l ∧ u.selected l = true ∧ WayOpen u p

end NextPlaid.Spec
