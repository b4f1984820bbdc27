import Verif.Model.Basic

/-!
Model of where `colgrep` keeps its indices and which one a command uses: /repo/colgrep/src/index/paths.rs, the beginnings of
/repo/colgrep/src/commands/{search,init,clear}.rs.  What an update does inside the directory of an index is modelled elsewhere
(`Model/Colgrep`); here it is a result given from outside.  Not: seeding from a sibling worktree, rebuilding a damaged index, failures of the
file system, Windows.
-/

namespace NextPlaid.Places

abbrev Text := List Char

/-- A canonical path: its components behind the root. -/
abbrev Path := List Text

/-- The path as text. -/
def render (p : Path) : Text := if p = [] then ['/'] else p.flatMap fun c => '/' :: c

/-- `format!("{:08x}", hash)`: hexadecimal digits, at least eight. -/
def hex (n : Nat) : Text :=
  let d := Nat.toDigits 16 n
  List.replicate (8 - d.length) '0' ++ d

/-- The name of the project, with everything but letters, digits, `-` and `_` replaced.
/repo/colgrep/src/index/paths.rs:105-121. -/
def sanitized (alnum : Char → Bool) (p : Path) : Text :=
  (p.getLast?.getD "project".toList).map fun c => if alnum c || c = '-' || c = '_' then c else '_'

/-- `compute_index_dir_name`; `hash` is xxh3 of the bytes of the text.  /repo/colgrep/src/index/paths.rs:96-124. -/
def dirName (hash : Text → Fin (2 ^ 64)) (alnum : Char → Bool) (p : Path) (model : Text) : Text :=
  sanitized alnum p ++ '-' :: (hex (hash (render p ++ '|' :: model)).val).take 8

/-- The directory of an index: `project.json` with the path and the model (older ones have no model), whether there is an
`index/metadata.json`, and the project and model whose vectors it has (not stored; for the statements). -/
structure Dir where
  project : Option (Path × Option Text)
  complete : Bool
  holds : Option (Path × Text)
  deriving DecidableEq, Repr

/-- The directories with their names, in the order `read_dir` gives them. -/
abbrev Store := List (Text × Dir)

def look (n : Text) (s : Store) : Option Dir := (s.find? fun e => e.1 = n).map (·.2)

def put (n : Text) (d : Dir) : Store → Store
  | [] => [(n, d)]
  | e :: s => if e.1 = n then (n, d) :: s else e :: put n d s

def remove (n : Text) (s : Store) : Store := s.filter fun e => e.1 ≠ n

variable (name : Path → Text → Text)

/-- `find_index_for_project`: /repo/colgrep/src/index/paths.rs:137-163. -/
def findIndex (s : Store) (p : Path) (model : Text) : Option Text := match look (name p model) s with
  | none => none
  | some d => if d.complete = false then none else match d.project with
    | some (q, m) => if q = p ∧ m ≠ some model ∧ m ≠ none then none else some (name p model)
    | none => some (name p model)

/-- `index_exists`: /repo/colgrep/src/index/paths.rs:166-168. -/
def indexExists (s : Store) (p : Path) (model : Text) : Bool := (findIndex name s p model).isSome

/-- `ParentIndexInfo`. -/
structure Parent where
  dir : Text
  root : Path
  subdir : Path
  deriving DecidableEq, Repr

/-- One step of the loop over the directories; the number of components counts the root.
/repo/colgrep/src/index/paths.rs:199-229. -/
def consider (p : Path) (model : Text) (best : Option Parent × Nat) (e : Text × Dir) : Option Parent × Nat := match e.2.project with
  | none => best
  | some (q, m) =>
    if m ≠ some model then best
    else if p = q then best
    else if q.isPrefixOf p = false then best
    else if best.2 < q.length + 1 then (some ⟨e.1, q, p.drop q.length⟩, q.length + 1)
    else best

/-- `find_parent_index`: /repo/colgrep/src/index/paths.rs:186-232. -/
def findParent (s : Store) (p : Path) (model : Text) : Option Parent := (s.foldl (consider p model) (none, 0)).1

/-- `is_external_project_path`: /repo/colgrep/src/commands/search.rs:413-421. -/
def external (p : Path) (cwd : Option Path) : Bool := match cwd with
  | none => false
  | some c => !c.isPrefixOf p

/-- The parent whose index a search uses: /repo/colgrep/src/commands/search.rs:1074-1086. -/
def searchParent (s : Store) (p : Path) (model : Text) (cwd : Option Path) : Option Parent :=
  if indexExists name s p model then none else if external p cwd then none else findParent s p model

/-- The project that is updated and searched: /repo/colgrep/src/commands/search.rs:1093-1099. -/
def rootOf (p : Path) (parent : Option Parent) : Path := match parent with
  | some i => i.root
  | none => p

/-- How an update goes: another process holds the lock; it ends (`rebuilt`: by a build and not by an incremental update; `complete`: with
an `index/metadata.json`); or it fails or is killed. -/
inductive Outcome
  | busy
  | done (rebuilt complete : Bool)
  | killed (complete : Bool)

/-- What the update leaves of the directory.  `project.json` is written at the end of a build, not by an incremental update.
/repo/colgrep/src/index/mod.rs:1615-1622, 1737-1748, 2276, 2434, 2446-2687; paths.rs:248-260. -/
def updated (root : Path) (model : Text) (d : Dir) : Outcome → Dir
  | .busy => d
  | .done rebuilt complete =>
    ⟨if rebuilt || !d.complete then some (root, some model) else d.project, complete, some (root, model)⟩
  | .killed complete => ⟨d.project, complete, some (root, model)⟩

/-- `IndexBuilder::with_options` and `try_index` or `index`: the directory is that of the project and the model.
/repo/colgrep/src/index/mod.rs:1098-1107. -/
def update (s : Store) (root : Path) (model : Text) (o : Outcome) : Store :=
  put (name root model) (updated root model ((look (name root model) s).getD ⟨none, false, none⟩) o) s

/-- What a search does: the store afterwards, and the directory it reads, with the subdirectory it keeps to; `none` if there is no index.
`o = none` is `--no-update`.  /repo/colgrep/src/commands/search.rs:1074-1260. -/
def search (s : Store) (cwd : Option Path) (p : Path) (model : Text) (o : Option Outcome) : Store × Option (Text × Option Path) :=
  let parent := searchParent name s p model cwd
  let root := rootOf p parent
  let s' := match o with
    | none => s
    | some o => update name s root model o
  let here := name root model
  (s', if ((look here s').map (·.complete)).getD false then
      some (match parent with | some i => (i.dir, some i.subdir) | none => (here, none))
    else none)

/-- `cmd_init`: /repo/colgrep/src/commands/init.rs:48-79. -/
def init (s : Store) (p : Path) (model : Text) (o : Outcome) : Store := update name s (rootOf p (findParent s p model)) model o

/-- `cmd_clear`: /repo/colgrep/src/commands/clear.rs:56-85. -/
def clear (s : Store) (p : Path) (model : Text) : Store := match look (name p model) s with
  | some _ => remove (name p model) s
  | none => match findParent s p model with
    | some i => remove i.dir s
    | none => s

/-- `cmd_clear --all`: /repo/colgrep/src/commands/clear.rs:18-55. -/
def clearAll (_ : Store) : Store := []

end NextPlaid.Places
