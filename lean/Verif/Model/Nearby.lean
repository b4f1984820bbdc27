import Verif.Model.Basic

/-!
Model of the help for a path that does not exist: `find_existing_parent_and_list`, /repo/colgrep/src/commands/search.rs:963-1011, called
with the path as it was typed (search.rs:1035-1041).
-/

namespace NextPlaid.Nearby

/-- A path as it is typed: absolute or not, and its components, the last one first.  Without components it is `/` or the empty
path. -/
structure Typed where
  abs : Bool
  rev : List String
  deriving DecidableEq

/-- What is at a path.  The entries of a directory are in the order of `read_dir`, with whether each is a directory; none when it cannot
be read.  Simplified: no single entry fails to be read. -/
inductive Kind where
  | file
  | dir (entries : List (String × Bool))

/-- The file system.  `stat` of the empty path fails (search.rs:968: `Path::exists` of `""` is false). -/
structure World where
  look : Typed → Option Kind
  empty : look ⟨false, []⟩ = none

/-- The text of the help. -/
inductive Help where
  | listing (at_ : Typed) (lines : List String) (truncated : Bool)
  | nothing
  deriving DecidableEq

/-- The loop of search.rs:968-974: up to the first path that exists, or to the one without a parent. -/
def climb (w : World) (abs : Bool) : List String → List String
  | [] => []
  | c :: cs => if (w.look ⟨abs, c :: cs⟩).isSome then c :: cs else climb w abs cs

/-- A line for an entry (search.rs:981-987). -/
def lineOf (e : String × Bool) : String := if e.2 then "  " ++ e.1 ++ "/" else "  " ++ e.1

/-- `entries.sort()` (search.rs:990). -/
def sorted (l : List String) : List String := l.mergeSort fun a b => decide (a ≤ b)

/-- `find_existing_parent_and_list` (search.rs:964-1011). -/
def help (w : World) (p : Typed) : Help :=
  let current : Typed := ⟨p.abs, climb w p.abs p.rev⟩
  match w.look current with
  | some (.dir entries) =>
    let lines := (entries.take 30).map lineOf
    .listing current (sorted lines) (decide (lines.length ≥ 30))
  | _ => .nothing

end NextPlaid.Nearby
