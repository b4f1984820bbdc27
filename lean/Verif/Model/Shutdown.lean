import Verif.Model.Batch

/-!
The server over several lives, with its end on SIGINT or SIGTERM: /repo/next-plaid-api/src/main.rs:260-288
(`shutdown_signal`), 897-907 (`with_graceful_shutdown`, the end of `main`), and the queues of one index with their workers
(`Verif.Model.Batch`).

From the documentation of axum and tokio: after the signal no connection is taken any more and `serve` returns when every
request under way is answered; when `main` returns, the runtime ends, tasks are dropped where they wait, blocking work that
has begun is waited for and blocking work that has not begun is dropped.  The workers are tasks (documents.rs:311-313,
746-748) and a batch is blocking work (documents.rs:411, 853); nothing tells the workers of the signal and nothing waits for
them.  One index; its removal, which closes the queues, is left out (`Verif.Model.Accepted`).
-/

namespace NextPlaid.Shutdown
open NextPlaid.Batch

variable {E M α : Type}

/-- What happened in one life: updates and deletions answered 202, and the batches whose work was done. -/
structure Life (E M α : Type) where
  updates : List (Item E M)
  updated : List (List E × List M)
  deletions : List α
  deleted : List (List α)

structure Server (E M α : Type) where
  up : State E M := {}
  del : DState α := {}
  /-- HTTP requests under way -/
  underWay : Nat := 0
  /-- HTTP requests taken and answered so far; history only -/
  taken : Nat := 0
  replied : Nat := 0
  signalled : Bool := false
  /-- the process has ended -/
  down : Bool := false
  /-- the lives that are over -/
  past : List (Life E M α) := []

inductive Event (E M α : Type) where
  /-- a request comes in -/
  | arrive
  /-- a request other than an update or a deletion of documents is answered -/
  | other
  | up (e : Batch.Event E M)
  | del (e : DEvent α)
  | signal
  /-- `main` returns; have the batches being processed begun their blocking work -/
  | exit (upBegun delBegun : Bool)
  /-- the server is started again -/
  | start

/-- The batches whose work is done when the runtime ends. -/
def kept {B W : Type} (handed : List B) (processing : W → Bool) (worker : W) (begun : Bool) : List B :=
  if processing worker && !begun then handed.dropLast else handed

/-- Is a batch being processed. -/
def busy : Worker E M → Bool
  | .processing _ => true
  | _ => false

def dBusy : DWorker α → Bool
  | .processing _ => true
  | _ => false

/-- The life that ends now. -/
def life (s : Server E M α) (upBegun delBegun : Bool) : Life E M α where
  updates := s.up.accepted
  updated := kept s.up.handed busy s.up.worker upBegun
  deletions := s.del.accepted
  deleted := kept s.del.handed dBusy s.del.worker delBegun

/-- Does this step of the queue of updates answer a request: documents.rs:1548-1598 (`request`), 1722-1771.  A reservation
answers only if it is refused. -/
def replies (cap : Nat) (q : State E M) : Batch.Event E M → Bool
  | .request _ => true
  | .reserve => !(q.closed == false && decide (q.queue.length + q.reserved < cap))
  | .sendReserved _ => true
  | .abandon => true
  | _ => false

/-- Does it need a request under way that is not yet waiting for its documents to be encoded. -/
def needs : Batch.Event E M → Bool
  | .request _ => true
  | .reserve => true
  | _ => false

/-- A request is answered. -/
def reply (b : Bool) (s : Server E M α) : Server E M α :=
  if b then { s with underWay := s.underWay - 1, replied := s.replied + 1 } else s

def isClose : Batch.Event E M → Bool
  | .close => true
  | _ => false

def upStep (max cap : Nat) (s : Server E M α) (e : Batch.Event E M) : Option (Server E M α) :=
  if isClose e || (needs e && decide (s.underWay ≤ s.up.reserved)) then none
  else (step max cap s.up e).map fun q => reply (replies cap s.up e) { s with up := q }

def isDClose : DEvent α → Bool
  | .close => true
  | _ => false

def dReplies : DEvent α → Bool
  | .request _ => true
  | _ => false

def delStep (dmax dcap : Nat) (s : Server E M α) (e : DEvent α) : Option (Server E M α) :=
  if isDClose e || (dReplies e && decide (s.underWay ≤ s.up.reserved)) then none
  else (dStep dmax dcap s.del e).map fun q => reply (dReplies e) { s with del := q }

/-- One step of a server that is up. -/
def runningStep (max cap dmax dcap : Nat) (s : Server E M α) : Event E M α → Option (Server E M α)
  | .arrive => if s.signalled then none else some { s with underWay := s.underWay + 1, taken := s.taken + 1 }
  | .other => if s.underWay ≤ s.up.reserved then none else some (reply true s)
  | .up e => upStep max cap s e
  | .del e => delStep dmax dcap s e
  | .signal => some { s with signalled := true }
  | .exit u d => if s.signalled ∧ s.underWay = 0 then some { s with down := true, past := s.past ++ [life s u d] } else none
  | .start => none

/-- One step; `none` when it cannot happen. -/
def next (max cap dmax dcap : Nat) (s : Server E M α) (e : Event E M α) : Option (Server E M α) :=
  if s.down then
    match e with
    -- queues are made anew; nothing on disk tells of those that were lost
    | .start => some { past := s.past }
    | _ => none
  else runningStep max cap dmax dcap s e

/-- A schedule. -/
def course (max cap dmax dcap : Nat) : Server E M α → List (Event E M α) → Option (Server E M α)
  | s, [] => some s
  | s, e :: es => (next max cap dmax dcap s e).bind fun s' => course max cap dmax dcap s' es

end NextPlaid.Shutdown
