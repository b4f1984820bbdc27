import Verif.Model.Catalogue

/-!
Model of requests about one index that overlap: reading its configuration, changing it, declaring
the index and removing it.  /repo/next-plaid-api/src/state.rs:459-510 and
/repo/next-plaid-api/src/handlers/documents.rs:416, 974-1022, 1420-1490, 1617-1640.

A step is what is done under one hold of the cache's lock, or one operation on the file system.
Simplifications: the directory is removed in one step, and no documents are stored meanwhile.
-/

namespace NextPlaid.ConfCache

open NextPlaid.Catalogue (Cfg File)

inductive Req where
  /-- `get_index_config`, by a request that does not hold the index's lock: `get_index_info`,
  `list_indices` (`get_index_summary`), and the worker's `process_batch`, whose lock is another one
  (`Model/Locks.lean`). -/
  | get
  | set (m : Option Nat)
  | create (c : Cfg)
  | delete
  deriving DecidableEq, Repr

inductive Ans where
  | config (c : Option Cfg)
  | changed (c : Cfg)
  | created (c : Cfg)
  | notFound
  | conflict
  | internal
  | deleted
  deriving DecidableEq, Repr

/-- What a request does next. -/
inductive Pc where
  | idle (a : Option Ans)
  /-- Look in the cache: state.rs:466-471. -/
  | get0
  /-- Read the file: state.rs:474-477. -/
  | get1
  /-- Keep what was read: state.rs:480-483. -/
  | get2 (c : Cfg)
  | waitSet (m : Option Nat)
  | set0 (m : Option Nat)
  | set1 (m : Option Nat)
  | set2 (m : Option Nat) (c : Cfg)
  | waitCreate (c : Cfg)
  /-- Is there one already? documents.rs:993-997. -/
  | create0 (c : Cfg)
  /-- Make the directory: documents.rs:1003-1004. -/
  | create1 (c : Cfg)
  /-- `File::create`: state.rs:493. -/
  | write0 (new : Bool) (c : Cfg)
  /-- `to_writer_pretty`: state.rs:495. -/
  | write1 (new : Bool) (c : Cfg)
  /-- `configs.insert`, and the lock is released: state.rs:499-500. -/
  | write2 (new : Bool) (c : Cfg)
  | waitDelete
  /-- `invalidate_config_cache`: documents.rs:1446. -/
  | delete0
  /-- `drop(_guard)`: documents.rs:1450. -/
  | delete1
  /-- `remove_dir_all`: documents.rs:1454-1475. -/
  | delete2
  deriving DecidableEq, Repr

structure St where
  dir : Bool
  file : File
  cache : Option Cfg
  /-- `get_index_lock(&name)`. -/
  lock : Option Nat
  pc : Nat → Pc
  /-- How many times an index was declared, and how many times a directory was removed. -/
  created : Nat
  removed : Nat

def St.goto (s : St) (t : Nat) (p : Pc) : St := { s with pc := fun u => if u = t then p else s.pc u }

def St.fin (s : St) (t : Nat) (a : Ans) : St := s.goto t (.idle (some a))

/-- Wait for the lock. -/
def St.acquire (s : St) (t : Nat) (p : Pc) : St :=
  match s.lock with
  | none => { s with lock := some t }.goto t p
  | some _ => s

def St.release (s : St) : St := { s with lock := none }

/-- One step of request `t`. -/
def run (s : St) (t : Nat) : St :=
  match s.pc t with
  | .idle _ => s
  | .get0 =>
    match s.cache with
    | some c => s.fin t (.config (some c))
    | none => s.goto t .get1
  | .get1 =>
    match s.file with
    | .good c => s.goto t (.get2 c)
    | _ => s.fin t (.config none)
  | .get2 c => { s with cache := some c }.fin t (.config (some c))
  | .waitSet m => s.acquire t (.set0 m)
  | .set0 m =>
    match s.cache with
    | some c => s.goto t (.write0 false { c with maxDocuments := m })
    | none => s.goto t (.set1 m)
  | .set1 m =>
    match s.file with
    | .good c => s.goto t (.set2 m c)
    | _ => s.release.fin t .notFound
  | .set2 m c => { s with cache := some c }.goto t (.write0 false { c with maxDocuments := m })
  | .waitCreate c => s.acquire t (.create0 c)
  | .create0 c => if s.file ≠ File.absent then s.release.fin t .conflict else s.goto t (.create1 c)
  | .create1 c => { s with dir := true }.goto t (.write0 true c)
  | .write0 new c => if s.dir then { s with file := .bad }.goto t (.write1 new c) else s.release.fin t .internal
  | .write1 new c => { s with file := if s.file = File.absent then File.absent else File.good c }.goto t (.write2 new c)
  | .write2 new c =>
    { s.release with cache := some c, created := s.created + (if new then 1 else 0) }.fin t (if new then .created c else .changed c)
  | .waitDelete => s.acquire t .delete0
  | .delete0 => { s with cache := none }.goto t .delete1
  | .delete1 => s.release.goto t .delete2
  | .delete2 =>
    if s.dir then { s with dir := false, file := .absent, removed := s.removed + 1 }.fin t .deleted
    else s.fin t .deleted

inductive Act where
  | start (t : Nat) (r : Req)
  | run (t : Nat)
  deriving DecidableEq, Repr

def begins : Req → Pc
  | .get => .get0
  | .set m => .waitSet m
  | .create c => .waitCreate c
  | .delete => .waitDelete

/-- A request comes in, or one of those at work does a step. -/
def act (s : St) : Act → St
  | .start t r =>
    match s.pc t with
    | .idle _ => s.goto t (begins r)
    | _ => s
  | .run t => run s t

def exec (s : St) (as : List Act) : St := as.foldl act s

/-- The server has just started; what the directory has is given. -/
def start (dir : Bool) (file : File) : St := ⟨dir, file, none, none, fun _ => .idle none, 0, 0⟩

end NextPlaid.ConfCache
