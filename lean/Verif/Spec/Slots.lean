import Verif.Model.Slots

/-! Specification of publication: which threads have loaded a version and not yet made it visible. -/

namespace NextPlaid.Spec
open NextPlaid NextPlaid.Slots

/-- The version a thread has loaded and not yet published. -/
def carried : Phase → Option Nat
  | .rLoaded v => some v
  | .pLoaded _ v => some v
  | .pInsert v => some v
  | _ => none

/-- The thread is in the course of a publication: it has found out that it must load, or has loaded a version and has not
yet made it visible. -/
def publishing (p : Phase) : Bool := p == .rMissing || (carried p).isSome

/-- No two publications overlap: at no moment of the schedule are two threads publishing. -/
def noOverlap : Slots.State → List Slots.Event → Prop
  | _, [] => True
  | s, e :: es => ∀ s', Slots.step s e = some s' → s'.threads.countP publishing ≤ 1 ∧ noOverlap s' es

/-- Every element is at most every later one. -/
def neverBack (l : List Nat) : Prop := l.Pairwise (· ≤ ·)

/-- A reader that holds the loading lock: it may be reading the directory. -/
def loading : Phase → Bool
  | .rLocked | .rMissing | .rLoaded _ | .rInserted => true
  | _ => false

end NextPlaid.Spec
