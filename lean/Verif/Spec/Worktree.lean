import Verif.Model.Worktree
import Verif.Spec.Colgrep

/-! Specification of the seeding of a worktree. -/

namespace NextPlaid.Spec

open NextPlaid.Colgrep (File Persist)
open NextPlaid.Worktree (Sibling)

/-- The files of the worktree `disk`, but those named in `known` with the content they have in the worktree `other`. -/
def withContentsOf {P C : Type} [DecidableEq P] (other : List (P × File C)) (known : List P) (disk : List (P × File C)) : List (P × File C) :=
  disk.map fun e => (e.1, { e.2 with content :=
    match (other.find? fun o => o.1 = e.1) with
    | some o => if e.1 ∈ known then o.2.content else e.2.content
    | none => e.2.content })

/-- A sibling that nobody changes while it is copied. -/
def Still {P U H : Type} (look : Nat → Sibling P U H) (store : Persist P U H) : Prop := ∀ i, look i = ⟨store, true⟩

/-- The sibling has a whole index: something is recorded, no build or update is under way. -/
structure Whole {P U H : Type} (s : Sibling P U H) : Prop where
  current : s.current = true
  index : s.store.vec ≠ none
  rows : s.store.db ≠ none
  files : s.store.state.files ≠ []
  finished : s.store.building = false
  clean : s.store.state.dirty = false

/-- What git prints about its worktrees: for each the path and some further lines. -/
def porcelain (trees : List (List Char × List (List Char))) : List Char :=
  trees.flatMap fun t => ("worktree ".toList ++ t.1 ++ ['\n']) ++ (t.2.flatMap fun line => line ++ ['\n']) ++ ['\n']

end NextPlaid.Spec
