import Verif.Model.Colgrep

/-!
Seeding the index of a git worktree from that of a sibling: /repo/colgrep/src/index/worktree.rs and /repo/colgrep/src/index/mod.rs lines 164-199,
1628-1635 and 1972-2048.

The store and the runs are those of `Colgrep`. Simplified: the vector index and the database are copied in one look each (the code copies file by file);
a failure to copy is left out, as are `project.json`, the version of the program and files whose time cannot be read.
-/

namespace NextPlaid.Worktree
open NextPlaid.Colgrep

/-! ### The siblings -/

/-- The lines of a text: `str::lines`, for texts without carriage returns. -/
def linesOf : List Char → List (List Char)
  | [] => []
  | c :: cs =>
    if c = '\n' then [] :: linesOf cs
    else match linesOf cs with
      | [] => [[c]]
      | l :: ls => (c :: l) :: ls

/-- `worktree `. -/
def entryPrefix : List Char := ['w', 'o', 'r', 'k', 't', 'r', 'e', 'e', ' ']

/-- `str::trim` with `white` as the white space. -/
def trimmed (white : Char → Bool) (s : List Char) : List Char := ((s.dropWhile white).reverse.dropWhile white).reverse

/-- `line.strip_prefix(..)`. -/
def stripPrefix : (pre line : List Char) → Option (List Char)
  | [], l => some l
  | _ :: _, [] => none
  | a :: pre, b :: l => if a = b then stripPrefix pre l else none

/-- The loop of `list_worktree_roots` over the output of `git worktree list --porcelain`, worktree.rs:59-72. `canonical` is `fs::canonicalize`. -/
def rootsIn {R : Type} (white : Char → Bool) (canonical : List Char → Option R) (stdout : List Char) : List R :=
  (linesOf stdout).filterMap fun line => (stripPrefix entryPrefix line).bind fun path => canonical (trimmed white path)

/-- `seed_candidates`, worktree.rs:81-98: every worktree but this one. -/
def candidates {R : Type} [DecidableEq R] (self : R) (roots : List R) : List R := roots.filter fun r => r ≠ self

/-! ### The copy -/

variable {P C U H : Type} [DecidableEq P] [DecidableEq H]

/-- The index directory of a sibling at some moment; `current`: its format is that of this program. -/
structure Sibling (P U H : Type) where
  store : Persist P U H
  current : Bool

/-- `seed_source_state`, mod.rs:176-199. -/
def usable (s : Sibling P U H) : Option (State P H) :=
  if s.store.building then none
  else if s.store.vec.isNone || s.store.db.isNone then none
  else if !s.store.state.files.isEmpty && s.current && !s.store.state.dirty then some s.store.state
  else none

/-- mod.rs:2022-2032: the times and sizes are those of the files of this worktree. -/
def restat (disk : Disk P C) (st : State P H) : State P H :=
  { st with files := st.files.map fun e => (e.1, { e.2 with stat := ((get disk e.1).map (·.stat)).getD e.2.stat }) }

/-- mod.rs:2007-2037. The state was read at look 0 of the sibling, the index is copied at look 1 and the database at look 2. What was in the place of
the index is removed, the copy is moved there, and the state is saved. -/
def copyFrom (disk : Disk P C) (look : Nat → Sibling P U H) (st : State P H) (l : Log P U H) : Log P U H :=
  let l1 := if l.now.db.isSome then write l fun d => { d with vec := none, db := none } else l
  let l2 := write l1 fun d => { d with vec := (look 1).store.vec, db := (look 2).store.db }
  saveState l2 (restat disk st)

/-- `try_seed_from_sibling_worktree`, mod.rs:1996-2048: the first usable sibling. -/
def trySeed (disk : Disk P C) (siblings : List (Nat → Sibling P U H)) (l : Log P U H) : Log P U H :=
  (siblings.findSome? fun look => (usable (look 0)).map fun st => copyFrom disk look st l).getD l

/-- `maybe_seed_from_worktree`, mod.rs:1979-1992. -/
def seed (force : Bool) (disk : Disk P C) (siblings : List (Nat → Sibling P U H)) (l : Log P U H) : Log P U H :=
  if force || l.now.vec.isSome then l else trySeed disk siblings l

/-- `run_indexing` with the seeding in front, mod.rs:1628-1728. -/
def indexTree (L : Lang P C U H) (force : Bool) (disk : Disk P C) (siblings : List (Nat → Sibling P U H)) (stop : Stop) (l : Log P U H) :
    Except (Halt P U H) (Log P U H) :=
  let l' := seed force disk siblings l
  if force then rebuild L disk stop l' else index L disk stop l'

end NextPlaid.Worktree
