import Verif.Model.Progress

/-!
Specification of the progress report in terms of what was recorded.
-/

namespace NextPlaid.Spec
open NextPlaid NextPlaid.Progress

/-- The update that an event belongs to is over. -/
def ends : Event → Bool
  | .complete _ _ => true
  | .failed _ => true
  | _ => false

/-- What was recorded for an index, oldest first. -/
def eventsOf (calls : List Call) (name : String) : List Event :=
  (calls.filter fun c => c.2.1 == name).map fun c => c.2.2

/-- What was recorded since the last end of an update. -/
def sinceEnd (es : List Event) : List Event := (es.reverse.takeWhile fun e => !ends e).reverse

/-- Some of the events say that work is in progress. -/
def startsWork (es : List Event) : Bool := es.any fun e => match e with | .stage _ _ => true | _ => false

/-- The number of documents queued by the events. -/
def documentsQueued : List Event → Nat
  | [] => 0
  | .queued n _ :: es => n + documentsQueued es
  | _ :: es => documentsQueued es

end NextPlaid.Spec
