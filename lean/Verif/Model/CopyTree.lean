import Verif.Model.Basic

/-!
Model of the copy of a sibling's index, file by file: `copy_dir_all`, /repo/colgrep/src/index/worktree.rs:100-123, and the part of
`try_seed_from_sibling_worktree` around it, /repo/colgrep/src/index/mod.rs:2008-2020.

Simplified: the source does not change during the copy (`C72_copied_during_update_misaligned` is about that).
-/

namespace NextPlaid.CopyTree

/-- A path below the directory of the index. -/
abbrev Path := List String

/-- The contents of a file. -/
abbrev Bytes := List Nat

/-- What is in the source, in the order of `read_dir`.  A symbolic link is what `fs::copy` reads through it: the contents of a
file, or none when it leads nowhere or to a directory. -/
inductive Node where
  | file (b : Bytes)
  | link (b : Option Bytes)
  | dir (es : List (String × Node))

/-- What is at a path of the destination. -/
inductive Kind where
  | dir
  | file (b : Bytes)
  deriving DecidableEq

/-- The directory of the index. -/
abbrev FS := Path → Option Kind

/-- One step on the directory of the index. -/
inductive Op where
  | mkdir (p : Path)
  | put (p : Path) (b : Bytes)
  | remove (p : Path)
  | rename (a b : Path)

/-- `fs::create_dir_all`, `fs::copy`, a step of `fs::remove_dir_all`, `fs::rename`. -/
def Op.apply (fs : FS) : Op → FS
  | .mkdir p => fun q => if q = p then some ((fs p).getD .dir) else fs q
  | .put p b => fun q => if q = p then some (.file b) else fs q
  | .remove p => fun q => if q = p then none else fs q
  | .rename a b => fun q =>
    if b <+: q then fs (a ++ q.drop b.length) else if a <+: q then none else fs q

/-- Several steps. -/
def run (fs : FS) (ops : List Op) : FS := ops.foldl Op.apply fs

mutual

/-- The body of the loop of `copy_dir_all` for one entry (worktree.rs:111-120): the steps, and whether none failed.  A file is first
there with a part of its contents, `part`. -/
def copyNode (part : Path → Bytes) (to : Path) : Node → List Op × Bool
  | .file b => ([.put to (part to), .put to b], true)
  | .link (some b) => ([.put to (part to), .put to b], true)
  | .link none => ([], false)
  | .dir es => (.mkdir to :: (copyEntries part to es).1, (copyEntries part to es).2)

/-- The loop of `copy_dir_all` (worktree.rs:107-121). -/
def copyEntries (part : Path → Bytes) (to : Path) : List (String × Node) → List Op × Bool
  | [] => ([], true)
  | (n, x) :: es =>
    if (copyNode part (to ++ [n]) x).2 then
      ((copyNode part (to ++ [n]) x).1 ++ (copyEntries part to es).1, (copyEntries part to es).2)
    else ((copyNode part (to ++ [n]) x).1, false)

end

/-- `copy_dir_all` (worktree.rs:105-123). -/
def copyDirAll (part : Path → Bytes) (es : List (String × Node)) (to : Path) : List Op × Bool := copyNode part to (.dir es)

/-- `fs::remove_dir_all`: the paths below, one by one, in the order of `names`; nothing when there are none (mod.rs:2011, 2016). -/
def removeAll (names : List Path) (p : Path) : List Op := (names.filter fun q => decide (p <+: q)).map .remove

/-- Where the copy is made (mod.rs:2010). -/
def scratch : Path := ["index.tmp"]

/-- Where the index is (`get_vector_index_path`). -/
def place : Path := ["index"]

/-- The steps of mod.rs:2008-2020.  `names` lists the paths that exist. -/
def seedOps (part : Path → Bytes) (names : List Path) (es : List (String × Node)) : List Op :=
  removeAll names scratch ++ (copyDirAll part es scratch).1 ++
    if (copyDirAll part es scratch).2 then removeAll names place ++ [.rename scratch place] else []

end NextPlaid.CopyTree
