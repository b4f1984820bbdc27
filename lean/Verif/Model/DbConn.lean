import Verif.Model.Server

/-!
Model of the read connections to metadata databases: /repo/next-plaid/src/filtering.rs:656-720.  A process keeps one open
connection per path and uses it for all reads; writes open the path anew.  A connection goes on reading the file it was
opened on, also when that file is no longer at the path.

Simplified: a database file has one number that is never used again (an inode of which a connection is open is not reused);
the check that the file exists and the opening are one step; a database of which the file is removed in between gives an
error, which is left out.  A transaction and the creation of a database are one step each; the files beside a database
(`-wal`, `-shm`) belong to it.
-/

namespace NextPlaid.DbConn

variable {P D : Type} [DecidableEq P]

/-- The files at the paths of databases, their contents, the cached connections (`DB_READ_CONNECTIONS`), and the reads under
way: path, file of the connection, and whether the connection is new. -/
structure World (P D : Type) where
  node : P → Option Nat
  data : Nat → D
  next : Nat
  conn : P → Option Nat
  held : Nat → Option (P × Nat × Bool)

/-- What happens in a process.
* `start r p`: read number `r` of the database at `p` looks for the cached connection or opens a new one.
* `finish r`: it puts a new connection into the cache, if there is none yet, and reads.
* `write p f`: `update`, `delete`, `update_where` and so on.
* `create p d`: `filtering::create` (`none`: without rows).
* `remove p`: the directory of the index is removed.
* `rename p q`: the directory is renamed. -/
inductive Op (P D : Type) where
  | start (r : Nat) (p : P)
  | finish (r : Nat)
  | write (p : P) (f : D → D)
  | create (p : P) (d : Option D)
  | remove (p : P)
  | rename (p q : P)

/-- A function changed in one place. -/
def put {A B : Type} [DecidableEq A] (f : A → B) (a : A) (b : B) : A → B := fun x => if x = a then b else f x

/-- The first half of a read: `if !db_path.exists()` in every reading function (for example filtering.rs:2681), and
`read_connection` up to the opening, filtering.rs:673-686.  A read of a database that is not there is answered at once. -/
def start (w : World P D) (r : Nat) (p : P) : World P D × List (P × Option D) :=
  match w.node p with
  | none => (w, [(p, none)])
  | some i =>
    match w.conn p with
    | some j => ({ w with held := put w.held r (some (p, j, false)) }, [])
    | none => ({ w with held := put w.held r (some (p, i, true)) }, [])

/-- The second half: `map.entry(key).or_insert_with(..)`, filtering.rs:687-690, and the query, 707-716. -/
def finish (w : World P D) (r : Nat) : World P D × List (P × Option D) :=
  match w.held r with
  | none => (w, [])
  | some (p, j, false) => ({ w with held := put w.held r none }, [(p, some (w.data j))])
  | some (p, j, true) =>
    ({ w with held := put w.held r none, conn := put w.conn p (some ((w.conn p).getD j)) }, [(p, some (w.data ((w.conn p).getD j)))])

/-- `open_db_write` on a database that exists, and a transaction: filtering.rs:722-731. -/
def write (w : World P D) (p : P) (f : D → D) : World P D :=
  match w.node p with
  | none => w
  | some i => { w with data := put w.data i (f (w.data i)) }

/-- `if db_path.exists() { invalidate_read_connection; remove_file }`: filtering.rs:1092-1095, 1159-1162. -/
def clear (w : World P D) (p : P) : World P D :=
  match w.node p with
  | none => w
  | some _ => { w with conn := put w.conn p none, node := put w.node p none }

/-- `create`: filtering.rs:1138-1307. -/
def create (w : World P D) (p : P) (d : Option D) : World P D :=
  match d with
  | none => clear w p
  | some d => { clear w p with node := put (clear w p).node p (some w.next), data := put w.data w.next d, next := w.next + 1 }

/-- `remove_dir_all` of the index: /repo/next-plaid-api/src/handlers/documents.rs:1458,
/repo/colgrep/src/commands/search.rs:1190, 1313, /repo/colgrep/src/index/mod.rs:2017, 2410, 2428.  No connection is invalidated. -/
def remove (w : World P D) (p : P) : World P D := { w with node := put w.node p none }

/-- `rename` of the directory: /repo/colgrep/src/index/mod.rs:2033, 2414, 2417; refused if there is nothing to rename or something
in the way. -/
def rename (w : World P D) (p q : P) : World P D :=
  if (w.node p).isSome ∧ w.node q = none then { w with node := put (put w.node q (w.node p)) p none } else w

/-- One step, and what was read. -/
def step (w : World P D) : Op P D → World P D × List (P × Option D)
  | .start r p => start w r p
  | .finish r => finish w r
  | .write p f => (write w p f, [])
  | .create p d => (create w p d, [])
  | .remove p => (remove w p, [])
  | .rename p q => (rename w p q, [])

/-- A history, and all that was read. -/
def run (w : World P D) : List (Op P D) → World P D × List (P × Option D)
  | [] => (w, [])
  | o :: l => ((run (step w o).1 l).1, (step w o).2 ++ (run (step w o).1 l).2)

/-! ### The repair of the server -/

section
open NextPlaid.Server NextPlaid.Index NextPlaid.Db

variable {E : Env} {S : Sql} {T : TextEnv S}

/-- The end of the repair with the count of rows as it is read (`seen`): documents.rs:166-177. -/
def verifyBy (seen : Store E T → Nat) (s : Store E T) : Res Bool :=
  match loadMeta s.disk with
  | .error e => .error e
  | .ok m => if m.numDocs = seen s then .ok true else .error .err

/-- documents.rs:145-152. -/
def repairDbBy (seen : Store E T → Nat) (s : Store E T) (ids : List Int) : List (Store E T) × Res Bool :=
  let s' : Store E T := { s with db := (delete s.db ids).1 }
  ([s'], verifyBy seen s')

/-- documents.rs:153-164. -/
def repairIndexBy (seen : Store E T → Nat) (s : Store E T) (ids : List Int) : List (Store E T) × Res Bool :=
  match load s.disk with
  | .error e => ([], .error e)
  | .ok _ =>
    match deleteFromIndex s.disk ids with
    | .error e => ([], .error e)
    | .ok (d, _) => ([{ s with disk := d }], verifyBy seen { s with disk := d })

/-- `repair_index_db_sync`, documents.rs:109-192, with the count of rows as it is read.  `Server.repair` is the case of a count
that is read from the database that is there. -/
def repairBy (seen : Store E T → Nat) (s : Store E T) : List (Store E T) × Res Bool :=
  if s.disk.metadata.isNone then ([], .ok false)
  else if s.db.isNone then ([], .ok false)
  else
    match loadMeta s.disk with
    | .error e => ([], .error e)
    | .ok m =>
      if m.numDocs = seen s then ([], .ok false)
      else if m.numDocs < seen s then repairDbBy seen s (idRange m.numDocs (seen s - m.numDocs))
      else repairIndexBy seen s (idRange (seen s) (m.numDocs - seen s))

/-- `filtering::count` through the connections of the process: filtering.rs:2679-2689. -/
def countAt (w : World P (Tables S)) (p : P) : Nat :=
  match (run w [.start 0 p, .finish 0]).2 with
  | (_, some t) :: _ => count (some t)
  | _ => 0

end

end NextPlaid.DbConn
