import Verif.Model.Basic

/-!
Model of the two background workers of an index in the API server: `next-plaid-api/src/handlers/documents.rs`
lines 286-380 and 1509-1771 (updates) and 690-824 and 1352-1410 (deletions).

A worker and the handlers that feed it are one transition system. The clock is not modelled: a timeout may happen at
any moment while a worker is waiting for more (`timeout`), which covers all clocks. `recv` under `tokio::time::timeout`
takes an item or leaves it in the channel (documented cancel safety), so receiving is one step. Handing a batch to
`process_batch` is recorded in `handed`; what that function does is modelled in `Model.Server`. `accepted` lists the
requests that were answered 202, in the order in which they entered the channel; it is history only, nothing reads it.
-/

namespace NextPlaid.Batch

/-- documents.rs:216-219 `BatchItem`. -/
structure Item (E M : Type) where
  embeddings : List E
  metadata : List M

/-- Where `batch_worker` (documents.rs:323-380) is. -/
inductive Worker (E M : Type) where
  /-- waiting for the first item, line 332 -/
  | idle
  /-- in the loop of lines 347-371 with `batch_embeddings`, `batch_metadata`, `doc_count` -/
  | collecting (embeddings : List E) (metadata : List M) (count : Nat)
  /-- in `process_batch`; afterwards the worker returns if `last` (line 363), else it loops -/
  | processing (last : Bool)
  /-- the task has ended -/
  | stopped

/-- An update queue with its worker. -/
structure State (E M : Type) where
  /-- items in the channel -/
  queue : List (Item E M) := []
  /-- slots reserved by `try_reserve`, documents.rs:1722 -/
  reserved : Nat := 0
  /-- all senders are gone -/
  closed : Bool := false
  worker : Worker E M := .idle
  /-- the calls of `process_batch` -/
  handed : List (List E × List M) := []
  accepted : List (Item E M) := []

/-- What can happen. -/
inductive Event (E M : Type) where
  /-- a request to `update_index` (documents.rs:1509-1598) reaches `try_send` -/
  | request (item : Item E M)
  /-- a request to `update_index_with_encoding` (documents.rs:1682-1771) reaches `try_reserve` -/
  | reserve
  /-- its documents are encoded and it sends -/
  | sendReserved (item : Item E M)
  /-- its documents cannot be encoded -/
  | abandon
  /-- the last sender is dropped, after `delete_index` removed the queue (documents.rs:1433-1437) -/
  | close
  /-- the worker receives, or learns that the channel is closed -/
  | recv
  /-- the worker's deadline passes, lines 349-351 and 367-370 -/
  | timeout
  /-- `process_batch` returns -/
  | done

variable {E M : Type}

/-- documents.rs:1535-1547 and 1701-1714: what is checked before a request is queued. -/
def valid (item : Item E M) : Bool :=
  !item.embeddings.isEmpty && item.metadata.length == item.embeddings.length

/-- The end of the loop: lines 358-364 when the channel is closed (`last`), 373-376 otherwise. -/
def finish (s : State E M) (embeddings : List E) (metadata : List M) (last : Bool) : State E M :=
  if embeddings.isEmpty then { s with worker := if last then .stopped else .idle }
  else { s with worker := .processing last, handed := s.handed ++ [(embeddings, metadata)] }

/-- The test of line 347. -/
def collect (max : Nat) (s : State E M) (embeddings : List E) (metadata : List M) (count : Nat) : State E M :=
  if count < max then { s with worker := .collecting embeddings metadata count }
  else finish s embeddings metadata false

/-- A receive of the worker: lines 332-346 and 353-366. -/
def receive (max : Nat) (s : State E M) : Option (State E M) :=
  match s.worker, s.queue with
  | .idle, item :: rest =>
    some (collect max { s with queue := rest } item.embeddings item.metadata item.embeddings.length)
  | .idle, [] => if s.closed then some { s with worker := .stopped } else none
  | .collecting embeddings metadata count, item :: rest =>
    some (collect max { s with queue := rest } (embeddings ++ item.embeddings) (metadata ++ item.metadata)
      (count + item.embeddings.length))
  | .collecting embeddings metadata _, [] => if s.closed then some (finish s embeddings metadata true) else none
  | _, _ => none

/-- One step; `none` when the event cannot happen. `max` is `max_batch_documents()`, `cap` is
`batch_channel_size()`. A request that is refused changes nothing. -/
def step (max cap : Nat) (s : State E M) : Event E M → Option (State E M)
  | .request item =>
    if valid item ∧ s.closed = false ∧ s.queue.length + s.reserved < cap then
      some { s with queue := s.queue ++ [item], accepted := s.accepted ++ [item] }
    else some s
  | .reserve => if s.closed = false ∧ s.queue.length + s.reserved < cap then some { s with reserved := s.reserved + 1 } else some s
  | .sendReserved item =>
    if 0 < s.reserved ∧ valid item then
      some { s with queue := s.queue ++ [item], reserved := s.reserved - 1, accepted := s.accepted ++ [item] }
    else none
  | .abandon => if 0 < s.reserved then some { s with reserved := s.reserved - 1 } else none
  | .close => if s.reserved = 0 then some { s with closed := true } else none
  | .recv => receive max s
  | .timeout =>
    match s.worker with
    | .collecting embeddings metadata _ => some (finish s embeddings metadata false)
    | _ => none
  | .done =>
    match s.worker with
    | .processing last => some { s with worker := if last then .stopped else .idle }
    | _ => none

/-- A schedule. -/
def run (max cap : Nat) : State E M → List (Event E M) → Option (State E M)
  | s, [] => some s
  | s, e :: es => (step max cap s e).bind fun s' => run max cap s' es

/-! ### Deletions -/

/-- Where `delete_batch_worker` (documents.rs:760-824) is. -/
inductive DWorker (α : Type) where
  /-- line 770 -/
  | idle
  /-- the first loop, lines 784-798 -/
  | first (batch : List α)
  /-- the second loop, lines 801-819 -/
  | second (batch : List α)
  | processing (last : Bool)
  | stopped

/-- A delete queue with its worker. -/
structure DState (α : Type) where
  queue : List α := []
  closed : Bool := false
  worker : DWorker α := .idle
  /-- the calls of `process_delete_batch` -/
  handed : List (List α) := []
  accepted : List α := []

inductive DEvent (α : Type) where
  /-- a request to `delete_documents` (documents.rs:1352-1410) reaches `try_send` -/
  | request (item : α)
  | close
  | recv
  | timeout
  | done

variable {α : Type}

/-- The call of `process_delete_batch`. The test `!batch.is_empty()` of lines 790 and 811 always holds: the batch starts
with the first item. -/
def dFinish (s : DState α) (batch : List α) (last : Bool) : DState α :=
  { s with worker := .processing last, handed := s.handed ++ [batch] }

/-- The tests of lines 784 and 801 on the number of conditions; the clock part of the first is the event `timeout`. -/
def dCollect (max : Nat) (s : DState α) (first : Bool) (batch : List α) : DState α :=
  if batch.length < max then { s with worker := if first then .first batch else .second batch }
  else dFinish s batch false

/-- A receive of the worker. -/
def dReceive (max : Nat) (s : DState α) : Option (DState α) :=
  match s.worker, s.queue with
  | .idle, item :: rest => some (dCollect max { s with queue := rest } true [item])
  | .idle, [] => if s.closed then some { s with worker := .stopped } else none
  | .first batch, item :: rest => some (dCollect max { s with queue := rest } true (batch ++ [item]))
  | .first batch, [] => if s.closed then some (dFinish s batch true) else none
  | .second batch, item :: rest => some (dCollect max { s with queue := rest } false (batch ++ [item]))
  | .second batch, [] => if s.closed then some (dFinish s batch true) else none
  | _, _ => none

def dStep (max cap : Nat) (s : DState α) : DEvent α → Option (DState α)
  | .request item =>
    if s.closed = false ∧ s.queue.length < cap then
      some { s with queue := s.queue ++ [item], accepted := s.accepted ++ [item] }
    else some s
  | .close => some { s with closed := true }
  | .recv => dReceive max s
  | .timeout =>
    match s.worker with
    | .first batch => some { s with worker := .second batch }
    | .second batch => some (dFinish s batch false)
    | _ => none
  | .done =>
    match s.worker with
    | .processing last => some { s with worker := if last then .stopped else .idle }
    | _ => none

def dRun (max cap : Nat) : DState α → List (DEvent α) → Option (DState α)
  | s, [] => some s
  | s, e :: es => (dStep max cap s e).bind fun s' => dRun max cap s' es

end NextPlaid.Batch
