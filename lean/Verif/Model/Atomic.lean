import Mathlib.Logic.Function.Basic

/-!
Model of `atomic_write_file`, /repo/next-plaid/src/utils.rs:16-82, over a model of a file system that can crash.

The file system is not code of the project; what is assumed about it is written here: a directory entry names an
inode, `create_new` uses a new inode, `rename` replaces one entry in one step, `fsync` of a file makes its
contents durable, `fsync` of the directory makes all entries durable, and at a crash any part of the
unsynchronised entry changes is lost and the contents of an unsynchronised inode are arbitrary.
One directory is modelled; names are byte strings without separators.
-/

namespace NextPlaid.Atomic

abbrev Name := List Nat
abbrev Bytes := List Nat

inductive DirOp
  | add (n : Name) (i : Nat)
  | del (n : Name)
  | move (a b : Name) (i : Nat)

def DirOp.apply (dir : Name → Option Nat) : DirOp → (Name → Option Nat)
  | .add n i => Function.update dir n (some i)
  | .del n => Function.update dir n none
  | .move a b i => Function.update (Function.update dir a none) b (some i)

/-- `dir`, `data` are what running processes see; `base` is the durable directory, `pend` the entry changes since,
`dirty` the inodes whose contents are not durable, `next` an inode number above all used ones. -/
structure Fs where
  dir : Name → Option Nat
  data : Nat → Bytes
  dirty : Nat → Bool
  base : Name → Option Nat
  pend : List DirOp
  next : Nat

def Fs.read (s : Fs) (n : Name) : Option Bytes := (s.dir n).map s.data

/-- What is on the disk after a crash. -/
structure Disk where
  dir : Name → Option Nat
  data : Nat → Bytes

def Disk.read (d : Disk) (n : Name) : Option Bytes := (d.dir n).map d.data

/-- The possible disks after a crash in state `s`. -/
def Crash (s : Fs) (d : Disk) : Prop :=
  (∃ ops : List DirOp, ops.Sublist s.pend ∧ d.dir = ops.foldl DirOp.apply s.base) ∧ ∀ i, s.dirty i = false → d.data i = s.data i

inductive Sys
  | createNew (n : Name)
  | append (i : Nat) (b : Bytes)
  | fsync (i : Nat)
  | unlink (n : Name)
  | rename (a b : Name)
  | fsyncDir

def record (s : Fs) (op : DirOp) : Fs := { s with dir := op.apply s.dir, pend := s.pend ++ [op] }

/-- The effect of a system call that succeeds. -/
def exec (s : Fs) : Sys → Fs
  | .createNew n =>
    { record s (.add n s.next) with
      data := Function.update s.data s.next [], dirty := Function.update s.dirty s.next true, next := s.next + 1 }
  | .append i b => { s with data := Function.update s.data i (s.data i ++ b), dirty := Function.update s.dirty i true }
  | .fsync i => { s with dirty := Function.update s.dirty i false }
  | .unlink n => record s (.del n)
  | .rename a b => match s.dir a with
    | none => s
    | some i => record s (.move a b i)
  | .fsyncDir => { s with base := s.dir, pend := [] }

def execs (s : Fs) (tr : List Sys) : Fs := tr.foldl exec s

def digits (n : Nat) : Name := (Nat.toDigits 10 n).map Char.toNat

/-- `atomic_temp_path_with_attempt`: /repo/next-plaid/src/utils.rs:64-82, with `time` for the clock reading:
`.{file_name}.{pid}.{nanos + attempt}.tmp`. -/
def tempName (file : Name) (pid time attempt : Nat) : Name :=
  46 :: file ++ 46 :: digits pid ++ 46 :: digits (time + attempt) ++ [46, 116, 109, 112]

/-- Everything the outside decides: the process id, the clock at each attempt, which calls fail, and what the
writer closure does (the chunks it writes, and whether it then succeeds). -/
structure Env where
  pid : Nat
  clock : Nat → Nat
  mkdirOk : Bool
  openOk : Nat → Bool
  chunks : List Bytes
  writerOk : Bool
  flushOk : Bool
  syncOk : Bool
  unlinkOk : Bool
  renameOk : Bool
  dirSyncOk : Bool

/-- The loop of lines 24-38: the temporary name that could be created, if any.  `fuel` is 9 minus the number of
attempts made. -/
def pickTemp (s : Fs) (e : Env) (file : Name) : Nat → Nat → Option Name
  | 0, _ => none
  | fuel + 1, attempt =>
    let t := tempName file e.pid (e.clock attempt) attempt
    match s.dir t with
    | none => if e.openOk attempt then some t else none
    | some _ => pickTemp s e file fuel (attempt + 1)

/-- The calls of lines 40-62, once the temporary file `t` (inode `i`) exists; and whether the result is `Ok`. -/
def finish (e : Env) (file t : Name) (i : Nat) : List Sys × Bool :=
  if !e.writerOk || !e.flushOk then ((if e.unlinkOk then [Sys.unlink t] else []), false)
  else if !e.syncOk then ((if e.unlinkOk then [Sys.unlink t] else []), false)
  else if !e.renameOk then ([.fsync i], false)
  else (.fsync i :: .rename t file :: (if e.dirSyncOk then [Sys.fsyncDir] else []), true)

/-- `atomic_write_file`: /repo/next-plaid/src/utils.rs:16-62.  The system calls made, in order, and whether the
result is `Ok`. -/
def atomicWrite (s : Fs) (e : Env) (file : Name) : List Sys × Bool :=
  if !e.mkdirOk then ([], false)
  else match pickTemp s e file 9 0 with
    | none => ([], false)
    | some t =>
      (.createNew t :: (e.chunks.map fun b => Sys.append s.next b) ++ (finish e file t s.next).1, (finish e file t s.next).2)

end NextPlaid.Atomic
