import Mathlib.Data.String.Basic
import Verif.Model.Batch

/-!
Model of the progress report of updates: /repo/next-plaid-api/src/state.rs:61-117 and 532-682, and of the places that
write to it: /repo/next-plaid-api/src/handlers/documents.rs:392-581 (worker), 1509-1598 and 1682-1771 (handlers).

The map is an association list.  Clock readings (`SystemTime`) are integers, in nanoseconds; nothing is assumed about
them: the clock may be set back.  Each function holds the write lock of the map, so it is one step.
-/

namespace NextPlaid.Progress
open NextPlaid

/-- The values of `status`. -/
inductive Status where
  | queued | running | complete | failed
  deriving DecidableEq

/-- state.rs:63-73 `UpdateProgress`. -/
structure Progress where
  status : Status
  stage : String
  queued : Option Nat := none
  processed : Option Nat := none
  started : Int
  updated : Int
  message : Option String := none
  error : Option String := none
  deriving DecidableEq

/-- state.rs:61 `UPDATE_STATUS_RETENTION`, in nanoseconds. -/
def retention : Int := 10 * 60 * 1000000000

/-- `usize::MAX`. -/
def usizeMax : Nat := 2 ^ 64 - 1

/-- state.rs:110-117 `update_progress_is_visible`; `duration_since` fails when the clock is behind. -/
def visible (p : Progress) (now : Int) : Bool :=
  p.status == .queued || p.status == .running || now < p.updated || now - p.updated ≤ retention

/-- The map `update_progress`. -/
abbrev Map := List (String × Progress)

/-- state.rs:106-108 `prune_expired_update_progress`. -/
def prune (m : Map) (now : Int) : Map := m.filter fun e => visible e.2 now

def find (m : Map) (name : String) : Option Progress := (m.find? fun e => e.1 == name).map (·.2)

/-- Change the entry of `name`, after inserting `fresh` if there is none: the `entry(..).or_insert_with(..)` of
state.rs:577, 601 and 626. -/
def change (m : Map) (name : String) (fresh : Progress) (f : Progress → Progress) : Map :=
  match find m name with
  | none => m ++ [(name, f fresh)]
  | some _ => m.map fun e => if e.1 == name then (e.1, f e.2) else e

/-- What is recorded. -/
inductive Event where
  | queued (documents : Nat) (message : String)
  | stage (stage message : String)
  | complete (documents : Nat) (message : String)
  | failed (error : String)
  deriving DecidableEq

/-- The part of state.rs:537-553 that changes an existing entry. -/
def requeue (now : Int) (n : Nat) (message : String) (p : Progress) : Progress :=
  let q := { p with queued := some (min (p.queued.getD 0 + n) usizeMax), updated := now, message := some message, error := none }
  if q.status = .running then q
  else { q with status := .queued, stage := "queued", processed := none, started := now }

/-- state.rs:533-569 `record_update_queued`; an existing entry is changed, otherwise one is inserted. -/
def recordQueued (m : Map) (now : Int) (name : String) (n : Nat) (message : String) : Map :=
  match find (prune m now) name with
  | some _ => change (prune m now) name { status := .queued, stage := "queued", started := now, updated := now } (requeue now n message)
  | none => prune m now ++ [(name, { status := .queued, stage := "queued", queued := some n, started := now, updated := now, message := some message })]

/-- state.rs:572-593 `record_update_stage`. -/
def recordStage (m : Map) (now : Int) (name stage message : String) : Map :=
  change (prune m now) name { status := .running, stage := stage, started := now, updated := now }
    fun p => { p with status := .running, stage := stage, updated := now, message := some message, error := none }

/-- state.rs:596-618 `record_update_complete`. -/
def recordComplete (m : Map) (now : Int) (name : String) (n : Nat) (message : String) : Map :=
  change (prune m now) name { status := .complete, stage := "complete", queued := some n, started := now, updated := now }
    fun p => { p with status := .complete, stage := "complete", processed := some n, updated := now, message := some message, error := none }

/-- state.rs:621-642 `record_update_failed`. -/
def recordFailed (m : Map) (now : Int) (name error : String) : Map :=
  change (prune m now) name { status := .failed, stage := "failed", started := now, updated := now }
    fun p => { p with status := .failed, stage := "failed", updated := now, message := some "update failed", error := some error }

/-- One call of a `record_update_*` function at a clock reading. -/
def record (m : Map) (now : Int) (name : String) : Event → Map
  | .queued n message => recordQueued m now name n message
  | .stage stage message => recordStage m now name stage message
  | .complete n message => recordComplete m now name n message
  | .failed error => recordFailed m now name error

/-- The calls of a server since it was started: clock reading, index, event. -/
abbrev Call := Int × String × Event

def runCalls (m : Map) (calls : List Call) : Map := calls.foldl (fun m c => record m c.1 c.2.1 c.2.2) m

/-- `UpdateHealthStatus`; the clock readings are shown as they are (their formatting is in `Model.Calendar`). -/
structure Row where
  index : String
  status : Status
  stage : String
  queued : Option Nat
  processed : Option Nat
  started : Int
  updated : Int
  elapsedMs : Nat
  message : Option String
  error : Option String
  deriving DecidableEq

/-- state.rs:653-664: `elapsed_ms`. -/
def elapsed (p : Progress) (now : Int) : Nat :=
  let stop := if p.status = .complete ∨ p.status = .failed then p.updated else now
  min ((stop - p.started).toNat / 1000000) (2 ^ 64 - 1)

/-- state.rs:652-677. -/
def row (name : String) (p : Progress) (now : Int) : Row :=
  { index := name, status := p.status, stage := p.stage, queued := p.queued, processed := p.processed,
    started := p.started, updated := p.updated, elapsedMs := elapsed p now, message := p.message, error := p.error }

/-- state.rs:645-682 `get_update_health_statuses`. -/
def report (m : Map) (now : Int) : List Row :=
  ((m.filter fun e => visible e.2 now).map fun e => row e.1 e.2 now).mergeSort fun a b => decide (a.index ≤ b.index)

/-! ### Who records what, and when -/

variable {E M : Type}

/-- One index of the server: its update queue, its worker and the report.  `pending` are the handlers that have put their
item into the queue and have not yet called `record_update_queued`; `begun`: the worker has the lock and has recorded
the stage "batching" (documents.rs:408). -/
structure System (E M : Type) where
  batch : Batch.State E M := {}
  pending : List Nat := []
  begun : Bool := false
  map : Map := []

/-- What can happen, at some clock reading. -/
inductive Act (E M : Type) where
  /-- `update_index` reaches `try_send`, documents.rs:1577 -/
  | accept (item : Batch.Item E M)
  /-- a handler that has sent its item records it, documents.rs:1587 and 1761 -/
  | recordSent
  /-- `update_index_with_encoding` reserves a slot and records that it is encoding, documents.rs:1722-1733 -/
  | reserve (documents : Nat)
  /-- its documents are encoded and sent, documents.rs:1752-1760 -/
  | encoded (item : Batch.Item E M)
  /-- they cannot be encoded, documents.rs:1745-1748 -/
  | encodeFailed (error : String)
  /-- the worker receives, times out, or the queue is closed -/
  | recv | timeout | close
  /-- `process_batch` gets the lock, documents.rs:406-408 -/
  | begin
  /-- a stage inside `process_batch` -/
  | stage (stage message : String)
  /-- `process_batch` ends well, documents.rs:537 -/
  | complete (documents : Nat)
  /-- `process_batch` fails, documents.rs:561 and 571 -/
  | fail (error : String)

/-- The worker is inside `process_batch`. -/
def processing (s : Batch.State E M) : Bool :=
  match s.worker with
  | .processing _ => true
  | _ => false

/-- One step of the system for the index `name`; `none` when it is not possible. -/
def act (max cap : Nat) (name : String) (s : System E M) (now : Int) : Act E M → Option (System E M)
  | .accept item =>
    (Batch.step max cap s.batch (.request item)).bind fun b =>
      if b.accepted.length = s.batch.accepted.length then some s
      else some { s with batch := b, pending := s.pending ++ [item.embeddings.length] }
  | .recordSent =>
    match s.pending with
    | [] => none
    | n :: rest => some { s with pending := rest, map := record s.map now name (.queued n "update queued for batching") }
  | .reserve n =>
    (Batch.step max cap s.batch .reserve).bind fun b =>
      if b.reserved = s.batch.reserved then some s
      else some { s with batch := b, map := record (record s.map now name (.queued n "encoding queued documents")) now name (.stage "encoding" "encoding documents") }
  | .encoded item =>
    (Batch.step max cap s.batch (.sendReserved item)).map fun b =>
      { s with batch := b, pending := s.pending ++ [item.embeddings.length] }
  | .encodeFailed error =>
    (Batch.step max cap s.batch .abandon).map fun b => { s with batch := b, map := record s.map now name (.failed error) }
  | .recv => (Batch.step max cap s.batch .recv).map fun b => { s with batch := b }
  | .timeout => (Batch.step max cap s.batch .timeout).map fun b => { s with batch := b }
  | .close => (Batch.step max cap s.batch .close).map fun b => { s with batch := b }
  | .begin =>
    if processing s.batch ∧ s.begun = false then
      some { s with begun := true, map := record s.map now name (.stage "batching" "processing queued update batch") }
    else none
  | .stage stage message =>
    if s.begun then some { s with map := record s.map now name (.stage stage message) } else none
  | .complete n =>
    if s.begun then
      (Batch.step max cap s.batch .done).map fun b =>
        { s with batch := b, begun := false, map := record s.map now name (.complete n "update complete") }
    else none
  | .fail error =>
    if s.begun then
      (Batch.step max cap s.batch .done).map fun b =>
        { s with batch := b, begun := false, map := record s.map now name (.failed error) }
    else none

/-- A schedule, with clock readings. -/
def runActs (max cap : Nat) (name : String) : System E M → List (Int × Act E M) → Option (System E M)
  | s, [] => some s
  | s, a :: as => (act max cap name s a.1 a.2).bind fun s' => runActs max cap name s' as

end NextPlaid.Progress
