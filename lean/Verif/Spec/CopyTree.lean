import Verif.Model.CopyTree

/-!
What a copy of a directory must be.
-/

namespace NextPlaid.Spec
open NextPlaid.CopyTree

/-- What a reader finds in the source at a path: links are followed. -/
def treeAt : Path → Node → Option Kind
  | [], .file b => some (.file b)
  | [], .link b => b.map .file
  | [], .dir _ => some .dir
  | n :: r, .dir es => (es.find? fun e => e.1 == n).bind fun e => treeAt r e.2
  | _ :: _, _ => none

mutual

/-- The names within each directory differ. -/
def TidyNode : Node → Prop
  | .dir es => TidyEntries es
  | _ => True

/-- The names differ, and so within each entry. -/
def TidyEntries : List (String × Node) → Prop
  | [] => True
  | (n, x) :: es => (∀ e ∈ es, e.1 ≠ n) ∧ TidyNode x ∧ TidyEntries es

end

mutual

/-- Every link leads to a file. -/
def FollowableNode : Node → Prop
  | .dir es => FollowableEntries es
  | .link none => False
  | _ => True

/-- Every link within leads to a file. -/
def FollowableEntries : List (String × Node) → Prop
  | [] => True
  | (_, x) :: es => FollowableNode x ∧ FollowableEntries es

end

/-- The list names all paths that exist. -/
def ListsAll (names : List Path) (fs : FS) : Prop := ∀ q, fs q ≠ none → q ∈ names

/-- The index is in its place: a later run finds its metadata. -/
def IndexSeen (fs : FS) : Prop := fs ["index", "metadata.json"] ≠ none

/-- What is in the place is the source, no more and no less. -/
def IsCopy (es : List (String × Node)) (fs : FS) : Prop := ∀ q, fs ("index" :: q) = treeAt q (.dir es)

/-- Everything but the place and the place of the copy is the same. -/
def SameElsewhere (fs fs' : FS) : Prop := ∀ q, q.head? ≠ some "index" → q.head? ≠ some "index.tmp" → fs' q = fs q

end NextPlaid.Spec
