import Verif.Model.Basic

/-!
Model of the limit of pending additions of documents, /repo/next-plaid-api/src/handlers/documents.rs:1182-1325 (`add_documents`) with
`get_index_semaphore` (275-284) and `get_index_lock` (249-257): a permit is taken, a task is started, the task waits for the lock of the
index, works, and gives both back.

Simplified: the checks before (documents.rs:1123-1180) have passed; other holders of the lock of the index are left out.
-/

namespace NextPlaid.Pending

/-- The additions of one index.  `started`: tasks that have not yet come to the lock (the runtime runs them in any order); `queue`: tasks
waiting for the lock, which tokio gives in order; `active`: the task holding it; `done`: tasks that ended, the latest last. -/
structure Index (D : Type) where
  avail : Nat
  started : List D
  queue : List D
  active : Option D
  done : List D

/-- All indexes. -/
abbrev Server (D : Type) := String → Index D

/-- An index for which nothing was added, with the limit `n`. -/
def idle {D : Type} (n : Nat) : Index D := ⟨n, [], [], none, []⟩

/-- What happens: an addition is requested, the `i`-th started task comes to the lock, the lock is given, the task holding it ends
(with success, an error or a panic of the work: all are handled alike, documents.rs:1279-1320). -/
inductive Event (D : Type) where
  | add (d : D)
  | reach (i : Nat)
  | lock
  | finish

variable {D : Type}

/-- `try_acquire_owned` and `tokio::spawn` (documents.rs:1188-1203): whether it is accepted (202) or refused (503). -/
def add (d : D) (x : Index D) : Bool × Index D :=
  if 0 < x.avail then (true, { x with avail := x.avail - 1, started := x.started ++ [d] }) else (false, x)

/-- One event of one index. -/
def step (x : Index D) : Event D → Index D
  | .add d => (add d x).2
  | .reach i =>
    match x.started[i]? with
    | some d => { x with started := x.started.eraseIdx i, queue := x.queue ++ [d] }
    | none => x
  | .lock =>
    match x.active, x.queue with
    | none, d :: q => { x with active := some d, queue := q }
    | _, _ => x
  | .finish =>
    match x.active with
    | some d => { x with active := none, done := x.done ++ [d], avail := x.avail + 1 }
    | none => x

/-- An event of the index with the name. -/
def serverStep (s : Server D) (e : String × Event D) : Server D := fun name => if name = e.1 then step (s name) e.2 else s name

/-- The server after some events. -/
def after (s : Server D) (es : List (String × Event D)) : Server D := es.foldl serverStep s

end NextPlaid.Pending
