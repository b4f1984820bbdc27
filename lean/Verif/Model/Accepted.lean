import Verif.Model.Abort
import Verif.Model.Batch

/-!
What becomes of accepted updates: one index of the server over its whole life, with the queue of updates and its worker
(`Verif.Model.Batch`), the batches they are made into (`Abort.batch`), and the requests that declare and remove the index:
/repo/next-plaid-api/src/handlers/documents.rs:289-380 (queues and workers), 400-560 (`process_batch`), 959-1035
(`create_index`), 1420-1490 (`delete_index`), 1509-1598 (`update_index`).

Removing an index takes its queue out of the registry and so drops a sender; the worker goes on until its channel is
empty (1433-1437, 330-337).  A batch is stored in one step, when the worker hands it over; that a removal can also come in
the middle of one is `Verif.Model.Locks`.  There is no limit on documents.
-/

namespace NextPlaid.Accepted

open NextPlaid.Abort

variable {V M : Type}

/-- One index. -/
structure Sys (V M : Type) where
  /-- `config.json` is there -/
  declared : Bool := false
  srv : Srv V M := ⟨Ix.empty, []⟩
  /-- the queue in the registry -/
  cur : Option (Batch.State (Mat V) M) := none
  /-- queues taken out of the registry, whose workers may still run -/
  old : List (Batch.State (Mat V) M) := []

/-- What can happen. -/
inductive Event (V M : Type) where
  | declare
  | remove
  /-- on the queue in the registry -/
  | work (e : Batch.Event (Mat V) M)
  /-- on the `i`-th of the queues taken out of it -/
  | drain (i : Nat) (e : Batch.Event (Mat V) M)

/-- The batch handed over by a step of a worker, if any, is processed: documents.rs:373-376, 400-560.  Without a
configuration it fails (416-418). -/
def process (cfg : Cfg) (held : List Nat) (declared : Bool) (srv : Srv V M) (q q' : Batch.State (Mat V) M) : Srv V M :=
  match q'.handed.drop q.handed.length with
  | [] => srv
  | b :: _ => if declared then (batch srv b.1 b.2 cfg held).1 else srv

/-- Is this a new request: documents.rs:1509-1527 and 1682-1699. -/
def asks : Batch.Event (Mat V) M → Bool
  | .request _ => true
  | .reserve => true
  | _ => false

/-- The queue in the registry is not closed: its sender is there. -/
def closes : Batch.Event (Mat V) M → Bool
  | .close => true
  | _ => false

/-- A step on the queue in the registry, which the first request makes (documents.rs:289-316).  A request for an index that
is not declared is refused (1521-1527). -/
def workStep (max cap : Nat) (cfg : Cfg) (held : List Nat) (s : Sys V M) (e : Batch.Event (Mat V) M) : Option (Sys V M) :=
  if asks e && !s.declared then some s
  else if closes e then none
  else
    match Batch.step max cap (s.cur.getD {}) e with
    | none => none
    | some q' => some { s with cur := some q', srv := process cfg held s.declared s.srv (s.cur.getD {}) q' }

/-- A step on a queue taken out of the registry; a request that got hold of the sender before may still use it. -/
def drainStep (max cap : Nat) (cfg : Cfg) (held : List Nat) (s : Sys V M) (i : Nat) (e : Batch.Event (Mat V) M) :
    Option (Sys V M) :=
  match s.old[i]? with
  | none => none
  | some q =>
    match Batch.step max cap q e with
    | none => none
    | some q' => some { s with old := s.old.set i q', srv := process cfg held s.declared s.srv q q' }

/-- One step; `none` when the event cannot happen. -/
def step (max cap : Nat) (cfg : Cfg) (held : List Nat) (s : Sys V M) : Event V M → Option (Sys V M)
  -- `create_index` writes `config.json`, or refuses when there is one
  | .declare => some { s with declared := true }
  -- `delete_index`
  | .remove => some { declared := false, srv := ⟨Ix.empty, []⟩, cur := none, old := s.old ++ s.cur.toList }
  | .work e => workStep max cap cfg held s e
  | .drain i e => drainStep max cap cfg held s i e

/-- A schedule. -/
def run (max cap : Nat) (cfg : Cfg) (held : List Nat) : Sys V M → List (Event V M) → Option (Sys V M)
  | s, [] => some s
  | s, e :: es => (step max cap cfg held s e).bind fun s' => run max cap cfg held s' es

end NextPlaid.Accepted
