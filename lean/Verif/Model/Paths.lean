import Verif.Model.Basic

/-!
Model of how the server finds the directory of an index: `AppState::index_path`, /repo/next-plaid-api/src/state.rs:347-350,
with `PathBuf::join` on Unix and the resolution of a path by the operating system.  Paths are character lists.  Symbolic
links are not modelled.
-/

namespace NextPlaid.Paths

/-- `Path::is_absolute` on Unix. -/
def absolute (p : List Char) : Bool := p.head? == some '/'

/-- `PathBuf::join` on Unix (the standard library): an absolute path replaces the base; otherwise a separator is put between
unless the base is empty or ends with one. -/
def join (base name : List Char) : List Char :=
  if absolute name then name
  else if base.isEmpty || base.getLast? == some '/' then base ++ name
  else base ++ '/' :: name

/-- The parts of a path between separators. -/
def parts : List Char → List (List Char)
  | [] => [[]]
  | c :: cs =>
    if c = '/' then [] :: parts cs
    else
      match parts cs with
      | [] => [[c]]
      | w :: ws => (c :: w) :: ws

/-- One part, followed by the operating system from a directory. -/
def enter (dir : List (List Char)) (part : List Char) : List (List Char) :=
  if part = [] ∨ part = ['.'] then dir
  else if part = ['.', '.'] then dir.dropLast
  else dir ++ [part]

/-- The directory a path denotes, as the list of names from the root; `cwd` is the working directory of the server. -/
def resolve (cwd : List (List Char)) (p : List Char) : List (List Char) :=
  (parts p).foldl enter (if absolute p then [] else cwd)

/-- state.rs:347-350 `index_path`: the name of the request is not checked (documents.rs:983-987 only refuses the empty name,
and only when an index is created). -/
def indexPath (indexDir name : List Char) : List Char := join indexDir name

end NextPlaid.Paths
