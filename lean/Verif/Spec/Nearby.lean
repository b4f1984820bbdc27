import Verif.Model.Nearby

/-!
What the help for a path that does not exist must say.
-/

namespace NextPlaid.Spec
open NextPlaid.Nearby

/-- `d` is the path itself or above it, exists, and nothing between them exists. -/
def ClosestTo (w : World) (p d : Typed) : Prop :=
  d.abs = p.abs ∧ d.rev <:+ p.rev ∧ (w.look d).isSome = true ∧
    ∀ e : Typed, e.abs = p.abs → e.rev <:+ p.rev → d.rev.length < e.rev.length → w.look e = none

/-- In order, each line once for each time it occurs. -/
def InOrder (l : List String) : Prop := l.Pairwise (· ≤ ·)

end NextPlaid.Spec
