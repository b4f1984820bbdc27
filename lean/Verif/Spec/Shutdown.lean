import Verif.Spec.Batch

/-!
The words used by the statements about ending the server: of one life of the server, what was answered 202 and what was done
with it.
-/

namespace NextPlaid.Spec.Shutdown

/-- `done` are batches of whole requests, and together they are the first of the `accepted`, in order. -/
def FirstOf {R B : Type} (batchOf : List R → B) (accepted : List R) (done : List B) : Prop :=
  ∃ groups rest, NextPlaid.Spec.CutsInto accepted groups rest ∧ done = groups.map batchOf

/-- All of the `accepted` are in `done`. -/
def AllOf {R B : Type} (batchOf : List R → B) (accepted : List R) (done : List B) : Prop :=
  ∃ groups, NextPlaid.Spec.CutsInto accepted groups [] ∧ done = groups.map batchOf

/-- All but at most `n` of the `accepted` are in `done`. -/
def AllBut {R B : Type} (n : Nat) (batchOf : List R → B) (accepted : List R) (done : List B) : Prop :=
  ∃ groups rest, NextPlaid.Spec.CutsInto accepted groups rest ∧ done = groups.map batchOf ∧ rest.length ≤ n

end NextPlaid.Spec.Shutdown
