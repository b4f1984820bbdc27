import Verif.Model.Npy

/-!
Model of the queues and semaphores of the server, one for each index, and of the settings they are made with:
/repo/next-plaid-api/src/handlers/documents.rs:38-46, 210-221, 270-324 and 718-750.

A panic while a mutex of the standard library is held poisons it, and `.lock().expect(..)` panics from then on.  tokio panics when
a channel is made for no elements, or a channel or semaphore for more than `usize::MAX >> 3`.
-/

namespace NextPlaid.Registry

/-- The three registries: `BATCH_QUEUES`, `DELETE_BATCH_QUEUES` and `INDEX_SEMAPHORES` (documents.rs:237, 244, 714). -/
inductive Kind where
  | updates
  | deletes
  | semaphores
  deriving DecidableEq

/-- The environment, as `std::env::var(..).ok()` gives it. -/
abbrev Env := String → Option String

/-- `std::env::var(..).ok().and_then(|v| v.parse().ok()).unwrap_or(..)` (documents.rs:41-44, 216-219). -/
def setting (env : Env) (name : String) (default : Nat) : Nat :=
  ((env name).bind fun v => Npy.parseUsize v.toList).getD default

/-- The process: the two settings, each read once (`OnceLock`), what was made for each index, the number of things made, and which
mutexes are poisoned. -/
structure Process where
  channel : Option Nat
  tasks : Option Nat
  made : Kind → String → Option Nat
  next : Nat
  poisoned : Kind → Bool

/-- A process that has served nothing. -/
def fresh : Process := ⟨none, none, fun _ _ => none, 0, fun _ => false⟩

/-- `Semaphore::MAX_PERMITS` of tokio on a 64-bit target. -/
def maxPermits : Nat := 2 ^ 61 - 1

/-- `max_queued_tasks_per_index` (documents.rs:38-46), `batch_channel_size` (documents.rs:213-221): the value and the process after
it. -/
def sizeFor (k : Kind) (env : Env) (s : Process) : Nat × Process :=
  match k with
  | .semaphores =>
    let n := s.tasks.getD (setting env "MAX_QUEUED_TASKS_PER_INDEX" 10)
    (n, { s with tasks := some n })
  | _ =>
    let n := s.channel.getD (setting env "BATCH_CHANNEL_SIZE" 100)
    (n, { s with channel := some n })

/-- Whether `mpsc::channel(n)` or `Semaphore::new(n)` returns. -/
def makes (k : Kind) (n : Nat) : Bool :=
  match k with
  | .semaphores => decide (n ≤ maxPermits)
  | _ => decide (0 < n) && decide (n ≤ maxPermits)

/-- `get_or_create_batch_queue` (documents.rs:289-324), `get_or_create_delete_batch_queue` (documents.rs:718-750) and
`get_index_semaphore` (documents.rs:274-284): the number of the thing returned, none for a panic. -/
def obtain_ (k : Kind) (env : Env) (key : String) (s : Process) : Option Nat × Process :=
  if s.poisoned k then (none, s)
  else match s.made k key with
    | some id => (some id, s)
    | none =>
      let (n, s) := sizeFor k env s
      if makes k n then
        (some s.next, { s with made := fun k' key' => if k' = k ∧ key' = key then some s.next else s.made k' key', next := s.next + 1 })
      else (none, { s with poisoned := fun k' => k' = k || s.poisoned k' })

/-- A request: what it needs, for which index, and the environment at that time. -/
structure Request where
  kind : Kind
  key : String
  env : Env

/-- The answers to a sequence of requests, and the process after them. -/
def serve : List Request → Process → List (Option Nat) × Process
  | [], s => ([], s)
  | r :: rs, s =>
    let a := obtain_ r.kind r.env r.key s
    let b := serve rs a.2
    (a.1 :: b.1, b.2)

end NextPlaid.Registry
