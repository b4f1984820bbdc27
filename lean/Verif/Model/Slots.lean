import Verif.Model.Basic

/-!
Model of the loaded indices of the API server: /repo/next-plaid-api/src/state.rs:15-59 and 358-461.  One index name (the maps
are keyed by name).  What an index contains is represented by the version of the directory at the moment it was loaded;
every completed write to the directory makes a new version.  Handlers and workers are threads that take their steps in
any order.  The map `indices` is behind a read-write lock, so every access of it is one step; `ArcSwap` loads and stores
are one step.
-/

namespace NextPlaid.Slots

/-- Where a thread is. -/
inductive Phase where
  /-- `get_index_for_read`, state.rs:413-416: at the fast path, line 380 -/
  | rStart
  /-- waiting for the loading lock, line 391 -/
  | rWait
  /-- it has the loading lock; the second look at the map, line 394 -/
  | rLocked
  /-- not found; `load_index`, line 361-367 is next -/
  | rMissing
  /-- it has loaded version `v`; the insertion, line 369, is next -/
  | rLoaded (v : Nat)
  /-- inserted; the last look at the map, line 404, is next -/
  | rInserted
  /-- it has slot `k`; `slot.load()`, line 415, is next -/
  | rSlot (k : Nat)
  /-- it has a snapshot of version `v` and searches it -/
  | rHas (v : Nat)
  | rFailed
  /-- a writer that publishes with `register_index` (documents.rs:520-521) or `reload_index` (documents.rs:919, 1278): the load is
  next -/
  | pStart (register : Bool)
  /-- it has loaded version `v` -/
  | pLoaded (register : Bool) (v : Nat)
  /-- `reload_index` found no slot; the insertion, line 458, is next -/
  | pInsert (v : Nat)
  | pDone
  deriving DecidableEq

structure State where
  /-- number of completed writes to the directory -/
  disk : Nat := 0
  /-- the directory has a `metadata.json` -/
  present : Bool := false
  /-- `indices[name]`: the number of its slot -/
  entry : Option Nat := none
  /-- the version in each slot ever made -/
  slots : List Nat := []
  /-- the holder of the loading lock -/
  loader : Option Nat := none
  threads : List Phase := []
  /-- history: the versions loaded from disk, and the versions readers got, oldest first -/
  loads : List Nat := []
  seen : List Nat := []
  deriving DecidableEq

inductive Event where
  /-- a write to the directory completes -/
  | write
  /-- the directory is removed -/
  | remove
  /-- `unload_index`, state.rs:430-433 -/
  | unload
  /-- a request that reads arrives -/
  | read
  /-- a writer is about to publish -/
  | publish (register : Bool)
  | next (i : Nat)
  deriving DecidableEq

def setPhase (s : State) (i : Nat) (p : Phase) : State := { s with threads := s.threads.set i p }

/-- `indices.insert(name, Arc::new(IndexSlot::new(idx)))`: lines 371, 425 and 458. -/
def insert (s : State) (v : Nat) : State := { s with slots := s.slots ++ [v], entry := some s.slots.length }

/-- `slot.store(idx)`: lines 423 and 453. -/
def store (s : State) (k v : Nat) : State := { s with slots := s.slots.set k v }

def release (s : State) : State := { s with loader := none }

/-- The next step of thread `i`. -/
def advance (s : State) (i : Nat) : Phase → Option State
  | .rStart =>
    match s.entry with
    | some k => some (setPhase s i (.rSlot k))
    | none => some (setPhase s i .rWait)
  | .rWait => if s.loader = none then some (setPhase { s with loader := some i } i .rLocked) else none
  | .rLocked =>
    match s.entry with
    | some k => some (setPhase (release s) i (.rSlot k))
    | none => some (setPhase s i .rMissing)
  | .rMissing =>
    if s.present then some (setPhase { s with loads := s.loads ++ [s.disk] } i (.rLoaded s.disk))
    else some (setPhase (release s) i .rFailed)
  | .rLoaded v => some (setPhase (insert s v) i .rInserted)
  | .rInserted =>
    match s.entry with
    | some k => some (setPhase (release s) i (.rSlot k))
    | none => some (setPhase (release s) i .rFailed)
  | .rSlot k =>
    match s.slots[k]? with
    | some v => some (setPhase { s with seen := s.seen ++ [v] } i (.rHas v))
    | none => none
  | .rHas _ => none
  | .rFailed => none
  | .pStart register =>
    if s.present then some (setPhase { s with loads := s.loads ++ [s.disk] } i (.pLoaded register s.disk))
    else some (setPhase s i .pDone)
  | .pLoaded register v =>
    match s.entry with
    | some k => some (setPhase (store s k v) i .pDone)
    | none => some (if register then setPhase (insert s v) i .pDone else setPhase s i (.pInsert v))
  | .pInsert v => some (setPhase (insert s v) i .pDone)
  | .pDone => none

/-- One step; `none` when it is not possible. -/
def step (s : State) : Event → Option State
  | .write => some { s with disk := s.disk + 1, present := true }
  | .remove => some { s with present := false }
  | .unload => some { s with entry := none }
  | .read => some { s with threads := s.threads ++ [.rStart] }
  | .publish register => some { s with threads := s.threads ++ [.pStart register] }
  | .next i =>
    match s.threads[i]? with
    | none => none
    | some p => advance s i p

def run : State → List Event → Option State
  | s, [] => some s
  | s, e :: es => (step s e).bind fun s' => run s' es

end NextPlaid.Slots
