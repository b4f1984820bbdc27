/-!
Model of the lock that colgrep processes take on the index of a project: /repo/colgrep/src/index/paths.rs:238-288, with its uses in
index/mod.rs:1615-1618, 1735-1747, 1763, commands/clear.rs:45-78 and commands/search.rs:1186-1209, 1308-1328.

A history is a list of steps of any number of processes, in any order, and of the passing of time, in milliseconds.  The lock file of the index is a
file in the index directory; a process that has opened it keeps that file, also when the directory has been removed and made again.  Simplified:
making the directory and opening the file is one step, and so is removing the directory; a lock is never refused for another reason than being held.
-/

namespace NextPlaid.ProcLock

/-- What a process wants with the index. -/
inductive Job where
  /-- `index` and `index_specific_files`: wait for the lock, then work. -/
  | index
  /-- `try_index`: work if nobody else does. -/
  | tryIndex
  /-- `colgrep clear`: wait for the lock, give it back, remove the directory. -/
  | clear
  /-- A broken index: wait for the lock, remove the directory, give the lock back. -/
  | rebuild
deriving DecidableEq, Repr

/-- Where a process is; the number is the file it has opened. -/
inductive Stage where
  | idle
  /-- It has opened the file at a time and has not got the lock. -/
  | trying (job : Job) (file since : Nat)
  /-- It has the lock. -/
  | holding (job : Job) (file : Nat)
  /-- It has the lock and has removed the directory. -/
  | removed (file : Nat)
  /-- It has given the lock back and is about to remove the directory. -/
  | removing
deriving DecidableEq, Repr

structure St where
  /-- The lock file in the index directory. -/
  file : Option Nat
  /-- The number of the next file that is made. -/
  next : Nat
  /-- The process that has locked a file. -/
  owner : Nat → Option Nat
  proc : Nat → Stage
  now : Nat

def begin : St := ⟨none, 0, fun _ => none, fun _ => .idle, 0⟩

inductive Op where
  /-- A process makes the directory and opens the lock file. -/
  | open (p : Nat) (job : Job)
  /-- It tries to lock the file. -/
  | attempt (p : Nat)
  /-- The next step of a process that has the lock, or had it. -/
  | proceed (p : Nat)
  /-- A process ends at any moment. -/
  | die (p : Nat)
  | pass (ms : Nat)
deriving DecidableEq, Repr

/-- What a process is told. -/
inductive Answer where
  | got (p : Nat) | waits (p : Nat) | timedOut (p : Nat) | busy (p : Nat)
deriving DecidableEq, Repr

def put {α : Type} (f : Nat → α) (p : Nat) (x : α) (q : Nat) : α := if q = p then x else f q

/-- A process closes its file: the lock is given back. -/
def close (s : St) (p : Nat) (stage : Stage) : St :=
  { s with owner := fun i => if s.owner i = some p then none else s.owner i, proc := put s.proc p stage }

/-- paths.rs:269-272: `File::create` opens the file if there is one. -/
def openLock (s : St) (p : Nat) (job : Job) : St :=
  match s.proc p with
  | .idle =>
    match s.file with
    | some i => { s with proc := put s.proc p (.trying job i s.now) }
    | none => { s with file := some s.next, next := s.next + 1, proc := put s.proc p (.trying job s.next s.now) }
  | _ => s

/-- One turn of the loop, paths.rs:275-287; for `try_index` lines 251-254. -/
def attempt (s : St) (p : Nat) : St × List Answer :=
  match s.proc p with
  | .trying job i since =>
    if s.owner i = none then ({ s with owner := put s.owner i (some p), proc := put s.proc p (.holding job i) }, [.got p])
    else if job = .tryIndex then (close s p .idle, [.busy p])
    else if s.now - since < 5000 then (s, [.waits p])
    else (close s p .idle, [.timedOut p])
  | _ => (s, [])

/-- Work ends; `clear` gives the lock back before it removes the directory, a rebuild after. -/
def proceed (s : St) (p : Nat) : St :=
  match s.proc p with
  | .holding .index _ => close s p .idle
  | .holding .tryIndex _ => close s p .idle
  | .holding .clear _ => close s p .removing
  | .holding .rebuild i => { s with file := none, proc := put s.proc p (.removed i) }
  | .removed _ => close s p .idle
  | .removing => { s with file := none, proc := put s.proc p .idle }
  | _ => s

def step (s : St) : Op → St × List Answer
  | .open p job => (openLock s p job, [])
  | .attempt p => attempt s p
  | .proceed p => (proceed s p, [])
  | .die p => (close s p .idle, [])
  | .pass ms => ({ s with now := s.now + ms }, [])

def run (s : St) : List Op → St
  | [] => s
  | o :: l => run (step s o).1 l

end NextPlaid.ProcLock
