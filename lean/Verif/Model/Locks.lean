import Verif.Model.Paths

/-!
Model of the locks of the API server: /repo/next-plaid-api/src/handlers/documents.rs:236-275 and the functions that use
them.  The server is a transition system: requests and batches arrive at any time (`spawn`) and take their steps in any
order (`next`).  A job is one call of a function that modifies an index directory.  `tokio::sync::Mutex` is a lock that
is taken when free (its queue order is not modelled).
-/

namespace NextPlaid.Locks

/-- The functions that modify an index directory. -/
inductive Kind where
  /-- `create_index`, documents.rs:975-1022 -/
  | create
  /-- the task of `add_documents`, documents.rs:1186-1322 -/
  | add
  /-- `update_index_config`, documents.rs:1618-1660 -/
  | config
  /-- `delete_index`, documents.rs:1420-1488 -/
  | remove
  /-- `process_batch`, documents.rs:392-581 -/
  | updateBatch
  /-- `process_delete_batch`, documents.rs:830-959 -/
  | deleteBatch
  /-- `update_metadata`, /repo/next-plaid-api/src/handlers/metadata.rs:427-484 -/
  | metadata
  deriving DecidableEq

structure Job where
  kind : Kind
  /-- the name in the request -/
  name : List Char
  deriving DecidableEq

/-- The key of the lock that a job takes: `get_index_lock(&name)` at documents.rs:990, 1186, 1427, 1626,
`get_index_lock_by_path(&path_str)` at 406 and 849, no lock in metadata.rs. -/
def key (indexDir : List Char) (j : Job) : Option (List Char) :=
  match j.kind with
  | .create | .add | .config | .remove => some j.name
  | .updateBatch | .deleteBatch => some (Paths.indexPath indexDir j.name)
  | .metadata => none

/-- Where a job is. -/
inductive Phase where
  | start
  /-- it has the `Arc` of lock `l` and waits -/
  | waiting (l : Nat)
  /-- it holds lock `l` and works -/
  | working (l : Nat)
  /-- `delete_index` after `drop(_guard)`, documents.rs:1450: it removes the directory -/
  | released
  /-- it works without a lock -/
  | unlocked
  | done
  deriving DecidableEq

structure State where
  /-- `INDEX_LOCKS`: entries are never removed -/
  registry : List (List Char × Nat) := []
  /-- who holds a lock -/
  held : Nat → Option Nat := fun _ => none
  jobs : List (Job × Phase) := []

/-- documents.rs:249-275: the entry of a key, which is created if it is not there. -/
def getLock (s : State) (k : List Char) : Nat × State :=
  match s.registry.find? fun e => e.1 == k with
  | some e => (e.2, s)
  | none => (s.registry.length, { s with registry := s.registry ++ [(k, s.registry.length)] })

def setHeld (s : State) (l : Nat) (h : Option Nat) : State := { s with held := fun l' => if l' = l then h else s.held l' }

def setPhase (s : State) (i : Nat) (p : Phase) : State := { s with jobs := s.jobs.modify i fun e => (e.1, p) }

inductive Event where
  | spawn (job : Job)
  | next (i : Nat)

/-- The next step of job `i`. -/
def advance (indexDir : List Char) (s : State) (i : Nat) (job : Job) : Phase → Option State
  | .start =>
    match key indexDir job with
    | none => some (setPhase s i .unlocked)
    | some k => some (setPhase (getLock s k).2 i (.waiting (getLock s k).1))
  | .waiting l => if s.held l = none then some (setPhase (setHeld s l (some i)) i (.working l)) else none
  | .working l => some (setPhase (setHeld s l none) i (if job.kind = .remove then .released else .done))
  | .released => some (setPhase s i .done)
  | .unlocked => some (setPhase s i .done)
  | .done => none

/-- One step; `none` when it is not possible. -/
def step (indexDir : List Char) (s : State) : Event → Option State
  | .spawn job => some { s with jobs := s.jobs ++ [(job, .start)] }
  | .next i =>
    match s.jobs[i]? with
    | none => none
    | some (job, p) => advance indexDir s i job p

def run (indexDir : List Char) : State → List Event → Option State
  | s, [] => some s
  | s, e :: es => (step indexDir s e).bind fun s' => run indexDir s' es

end NextPlaid.Locks
