import Verif.Model.Pending

/-!
What the limit of pending additions must be.
-/

namespace NextPlaid.Spec
open NextPlaid.Pending

variable {D : Type}

/-- The additions that were accepted and have not ended. -/
def unfinished (x : Index D) : List D := x.started ++ x.queue ++ x.active.toList

/-- The additions of one index that a history accepted: a request is accepted when fewer than the limit are unfinished
at that moment. -/
def acceptedBy (n : Nat) (name : String) : Server D → List (String × Event D) → List D
  | _, [] => []
  | s, (m, .add d) :: es =>
    (if m = name ∧ (unfinished (s name)).length < n then [d] else []) ++ acceptedBy n name (serverStep s (m, .add d)) es
  | s, e :: es => acceptedBy n name (serverStep s e) es

end NextPlaid.Spec
