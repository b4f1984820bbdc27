import Verif.Model.Basic
import Mathlib.Data.List.Lex
import Mathlib.Data.String.Basic

/-!
Model of the server's catalogue of indexes: which indexes there are, with which configuration.
/repo/next-plaid-api/src/state.rs:346-360, 459-530, 690-755 and
/repo/next-plaid-api/src/handlers/documents.rs:48-80, 959-1117, 1420-1490, 1598-1658.

Requests come one after another here; requests that overlap are in `Model/ConfCache.lean`.
Names are names of entries of the index directory (other names: `Model/Paths.lean`).
-/

namespace NextPlaid.Catalogue

abbrev Name := List Char

/-- `IndexConfigStored`: /repo/next-plaid-api/src/models.rs:75-98. -/
structure Cfg where
  nbits : Nat
  batchSize : Nat
  seed : Option Nat
  startFromScratch : Nat
  maxDocuments : Option Nat
  tokenizer : List Char
  deriving DecidableEq, Repr

/-- `IndexConfigRequest`: every member may be left out. -/
structure CfgReq where
  nbits : Option Nat := none
  batchSize : Option Nat := none
  seed : Option Nat := none
  startFromScratch : Option Nat := none
  maxDocuments : Option Nat := none
  tokenizer : Option (List Char) := none
  deriving DecidableEq, Repr

/-- `build_stored_index_config`: /repo/next-plaid-api/src/handlers/documents.rs:62-80.  `dss` is
`default_start_from_scratch()`, /repo/next-plaid/src/lib.rs:53-62. -/
def buildStored (dss : Nat) (r : CfgReq) : Cfg :=
  ⟨r.nbits.getD 4, r.batchSize.getD 50000, r.seed, r.startFromScratch.getD dss, r.maxDocuments,
    r.tokenizer.getD ['u', 'n', 'i', 'c', 'o', 'd', 'e', '6', '1']⟩

/-- `config.json`. -/
inductive File where
  | absent
  | bad
  | good (c : Cfg)
  deriving DecidableEq, Repr

/-- A directory in the index directory: its `config.json`, and whether there is a `metadata.json`. -/
structure Entry where
  config : File
  index : Bool
  deriving DecidableEq, Repr

/-- Directories, in the order in which they are read. -/
abbrev Disk := List (Name × Entry)

structure Server where
  disk : Disk
  cache : Name → Option Cfg

def entry (d : Disk) (n : Name) : Option Entry := d.lookup n

/-- Change or make the directory `n`. -/
def put (d : Disk) (n : Name) (e : Entry) : Disk := d.filter (fun p => p.1 != n) ++ [(n, e)]

def readFile (d : Disk) (n : Name) : Option Cfg :=
  match entry d n with
  | some ⟨.good c, _⟩ => some c
  | _ => none

/-- `path.join("config.json").exists() || path.join("metadata.json").exists()`. -/
def known : Option Entry → Bool
  | some ⟨f, i⟩ => decide (f ≠ .absent) || i
  | none => false

/-- `get_index_config`: /repo/next-plaid-api/src/state.rs:459-484. -/
def getConfig (s : Server) (n : Name) : Option Cfg × Server :=
  match s.cache n with
  | some c => (some c, s)
  | none =>
    match readFile s.disk n with
    | none => (none, s)
    | some c => (some c, { s with cache := fun m => if m = n then some c else s.cache m })

/-- `set_index_config`: /repo/next-plaid-api/src/state.rs:487-503.  `none`: the directory is missing. -/
def setConfig (s : Server) (n : Name) (c : Cfg) : Option Server :=
  match entry s.disk n with
  | none => none
  | some e => some ⟨put s.disk n { e with config := .good c }, fun m => if m = n then some c else s.cache m⟩

/-- `names.sort()`. -/
def sortNames (l : List Name) : List Name := l.mergeSort (fun a b => decide (a ≤ b))

/-- `list_all`: /repo/next-plaid-api/src/state.rs:512-530. -/
def listAll (d : Disk) : List Name := sortNames ((d.filter fun p => known (some p.2)).map Prod.fst)

inductive Req where
  | create (n : Name) (r : CfgReq)
  | setMax (n : Name) (m : Option Nat)
  | delete (n : Name)
  | populate (n : Name)
  | list
  | info (n : Name)
  | summary (n : Name)
  | restart
  deriving DecidableEq, Repr

inductive Resp where
  | badRequest
  | conflict
  | notFound
  | internal
  | created (c : Cfg)
  | config (c : Cfg)
  | deleted
  | names (l : List Name)
  | info (maxDocuments : Option Nat)
  | summary (indexed : Bool) (nbits : Option Nat) (maxDocuments : Option Nat)
  | populated (c : Cfg)
  | failed
  | none
  deriving DecidableEq, Repr

/-- `create_index`: /repo/next-plaid-api/src/handlers/documents.rs:974-1022. -/
def create (dss : Nat) (s : Server) (n : Name) (r : CfgReq) : Resp × Server :=
  if n = [] then (.badRequest, s)
  else if known (entry s.disk n) then (.conflict, s)
  else
    let made : Server := { s with disk := put s.disk n ((entry s.disk n).getD ⟨.absent, false⟩) }
    match setConfig made n (buildStored dss r) with
    | none => (.internal, made)
    | some s' => (.created (buildStored dss r), s')

/-- `update_index_config`: /repo/next-plaid-api/src/handlers/documents.rs:1617-1658. -/
def setMax (s : Server) (n : Name) (m : Option Nat) : Resp × Server :=
  match getConfig s n with
  | (none, s) => (.notFound, s)
  | (some c, s) =>
    match setConfig s n { c with maxDocuments := m } with
    | none => (.internal, s)
    | some s' => (.config { c with maxDocuments := m }, s')

/-- `delete_index`: /repo/next-plaid-api/src/handlers/documents.rs:1420-1490. -/
def delete (s : Server) (n : Name) : Resp × Server :=
  (.deleted, ⟨s.disk.filter (fun p => p.1 != n), fun m => if m = n then none else s.cache m⟩)

/-- A batch of documents that is stored without an error, as far as the catalogue is concerned:
/repo/next-plaid-api/src/handlers/documents.rs:411-460.  It reads the configuration and leaves a
`metadata.json`; the directory is made if it is missing. -/
def populate (s : Server) (n : Name) : Resp × Server :=
  match getConfig s n with
  | (none, s) => (.failed, s)
  | (some c, s) => (.populated c, { s with disk := put s.disk n { (entry s.disk n).getD ⟨.absent, false⟩ with index := true } })

/-- `get_index_info`: /repo/next-plaid-api/src/handlers/documents.rs:1037-1090, with the index loaded
from the directory (`get_index_slot`, /repo/next-plaid-api/src/state.rs:375-407). -/
def info (s : Server) (n : Name) : Resp × Server :=
  match entry s.disk n with
  | some ⟨_, true⟩ =>
    match getConfig s n with
    | (c, s) => (.info (c.bind (·.maxDocuments)), s)
  | _ => (.notFound, s)

/-- `get_index_summary`: /repo/next-plaid-api/src/state.rs:703-755.  `nbits` is `none` where it is read
from `metadata.json`. -/
def summary (s : Server) (n : Name) : Resp × Server :=
  match getConfig s n with
  | (c, s) =>
    if (entry s.disk n).any (·.index) then (.summary true none (c.bind (·.maxDocuments)), s)
    else (.summary false (some ((c.map (·.nbits)).getD 4)) (c.bind (·.maxDocuments)), s)

def step (dss : Nat) (s : Server) : Req → Resp × Server
  | .create n r => create dss s n r
  | .setMax n m => setMax s n m
  | .delete n => delete s n
  | .populate n => populate s n
  | .list => (.names (listAll s.disk), s)
  | .info n => info s n
  | .summary n => summary s n
  | .restart => (.none, { s with cache := fun _ => none })

/-- Requests one after another, with their answers. -/
def run (dss : Nat) : Server → List Req → List Resp × Server
  | s, [] => ([], s)
  | s, r :: rs =>
    match step dss s r with
    | (a, s) =>
      match run dss s rs with
      | (as, s) => (a :: as, s)

end NextPlaid.Catalogue
