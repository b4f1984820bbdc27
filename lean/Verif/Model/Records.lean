import Verif.Model.JsonText

/-!
Model of the records kept in JSON files: what `#[derive(Serialize, Deserialize)]` makes of them, and how the files are
written and read.

A record is written as an object with its fields in the order of their declaration.  Reading accepts the fields in any
order, ignores unknown ones, and refuses a repeated one.  Simplified: serde also accepts an array in place of a record;
here an array is refused.
-/

namespace NextPlaid.Records
open NextPlaid.JsonText

variable {R : Type}

/-- An unsigned integer of 64 bits (`usize`, `u64`). -/
def readNat : J R → Option Nat
  | .int i => if 0 ≤ i ∧ i < 2 ^ 64 then some i.toNat else none
  | _ => none

/-- An unsigned integer of 32 bits. -/
def readNat32 : J R → Option Nat
  | .int i => if 0 ≤ i ∧ i < 2 ^ 32 then some i.toNat else none
  | _ => none

/-- A signed integer of 64 bits. -/
def readInt : J R → Option Int
  | .int i => if -2 ^ 63 ≤ i ∧ i < 2 ^ 63 then some i else none
  | _ => none

/-- A floating point number; an integer is converted. -/
def readReal (F : Reals R) : J R → Option R
  | .int i => some (F.ofInt i)
  | .real r => some r
  | _ => none

/-- A truth value. -/
def readBool : J R → Option Bool
  | .bool b => some b
  | _ => none

/-- A string.  A `PathBuf` is read and written as a string too; a path that is not Unicode cannot be written. -/
def readStr : J R → Option (List Char)
  | .str s => some s
  | _ => none

/-- `Option<T>`: `null` is `None`. -/
def readOpt {α : Type} (read : J R → Option α) : J R → Option (Option α)
  | .null => some none
  | v => (read v).map some

/-- All elements. -/
def readAll {α : Type} (read : J R → Option α) : List (J R) → Option (List α)
  | [] => some []
  | v :: l => (read v).bind fun a => (readAll read l).map fun r => a :: r

/-- `Vec<T>`. -/
def readList {α : Type} (read : J R → Option α) : J R → Option (List α)
  | .arr l => readAll read l
  | _ => none

/-- All entries. -/
def readEntries {α : Type} (read : J R → Option α) : List (List Char × J R) → Option (List (List Char × α))
  | [] => some []
  | (k, v) :: l => (read v).bind fun a => (readEntries read l).map fun r => (k, a) :: r

/-- `HashMap<String, T>`, as the list of entries in the order of insertion (a later entry replaces an earlier one). -/
def readMap {α : Type} (read : J R → Option α) : J R → Option (List (List Char × α))
  | .obj l => readEntries read l
  | _ => none

/-- A field of a record: `missing` is its value when it is absent (none: the record is refused). -/
def field {α : Type} (key : String) (read : J R → Option α) (missing : Option α) (l : List (List Char × J R)) : Option α :=
  match l.filter (fun e => e.1 == key.toList) with
  | [] => missing
  | [e] => read e.2
  | _ => none

/-- An entry of an object that is written. -/
def entry (key : String) (v : J R) : List Char × J R := (key.toList, v)

/-- The entries of a record. -/
def fields : J R → Option (List (List Char × J R))
  | .obj l => some l
  | _ => none

/-- `Option<T>` written as the value or `null`. -/
def optJ {α : Type} (f : α → J R) : Option α → J R
  | none => .null
  | some a => f a

/-- `#[serde(skip_serializing_if = "Option::is_none")]`. -/
def skipNone {α : Type} (key : String) (f : α → J R) : Option α → List (List Char × J R)
  | none => []
  | some a => [entry key (f a)]

/-- `#[serde(skip_serializing_if = "Vec::is_empty")]`. -/
def skipEmpty {α : Type} (key : String) (f : α → J R) : List α → List (List Char × J R)
  | [] => []
  | a :: l => [entry key (.arr ((a :: l).map f))]

/-- A number as JSON. -/
def natJ (n : Nat) : J R := .int n

/-! ### `metadata.json` of an index -/

/-- `Metadata`: /repo/next-plaid/src/index.rs:104-127. -/
structure Metadata (R : Type) where
  numChunks : Nat
  nbits : Nat
  numPartitions : Nat
  numEmbeddings : Nat
  avgDoclen : R
  numDocuments : Nat
  embeddingDim : Nat
  compatible : Bool
  deriving DecidableEq

/-- What is written. -/
def Metadata.toJ (m : Metadata R) : J R :=
  .obj [entry "num_chunks" (natJ m.numChunks), entry "nbits" (natJ m.nbits), entry "num_partitions" (natJ m.numPartitions),
    entry "num_embeddings" (natJ m.numEmbeddings), entry "avg_doclen" (.real m.avgDoclen), entry "num_documents" (natJ m.numDocuments),
    entry "embedding_dim" (natJ m.embeddingDim), entry "next_plaid_compatible" (.bool m.compatible)]

/-- What is read. -/
def readMetadata (F : Reals R) (v : J R) : Option (Metadata R) := do
  let l ← fields v
  let numChunks ← field "num_chunks" readNat none l
  let nbits ← field "nbits" readNat none l
  let numPartitions ← field "num_partitions" readNat none l
  let numEmbeddings ← field "num_embeddings" readNat none l
  let avgDoclen ← field "avg_doclen" (readReal F) none l
  let numDocuments ← field "num_documents" readNat (some 0) l
  let embeddingDim ← field "embedding_dim" readNat (some 0) l
  let compatible ← field "next_plaid_compatible" readBool (some false) l
  return ⟨numChunks, nbits, numPartitions, numEmbeddings, avgDoclen, numDocuments, embeddingDim, compatible⟩

/-- The text of `metadata.json`: `serde_json::to_writer_pretty`, /repo/next-plaid/src/index.rs:520-526. -/
def Metadata.text (F : Reals R) (m : Metadata R) : List Char := pretty F m.toJ

/-- The text of `doclens.N.json`: `serde_json::to_writer`, /repo/next-plaid/src/index.rs:452-458. -/
def doclensText (F : Reals R) (l : List Int) : List Char := compact F (.arr (l.map .int))

/-- `serde_json::from_reader::<_, Vec<i64>>`: /repo/next-plaid/src/index.rs:145, 1101. -/
def loadDoclens (F : Reals R) (text : List Char) : Option (List Int) := (parse F text).bind (readList readInt)

/-- The documents counted from the length files: /repo/next-plaid/src/index.rs:140-150.  A file that is missing (none) or
cannot be read counts for nothing. -/
def countDocs (F : Reals R) (doclens : Nat → Option (List Char)) : Nat → Nat
  | 0 => 0
  | n + 1 => countDocs F doclens n + (((doclens n).bind (loadDoclens F)).map List.length).getD 0

/-- `Metadata::load_from_path`: /repo/next-plaid/src/index.rs:131-155, for the contents of `metadata.json` and of the
files `doclens.N.json`. -/
def loadMetadata (F : Reals R) (file : Option (List Char)) (doclens : Nat → Option (List Char)) : Option (Metadata R) := do
  let text ← file
  let v ← parse F text
  let m ← readMetadata F v
  return { m with numDocuments := if m.numDocuments = 0 then countDocs F doclens m.numChunks else m.numDocuments }

/-! ### The configuration of an index on the server -/

/-- `IndexConfigStored`: /repo/next-plaid-api/src/models.rs:74-98. -/
structure Stored where
  nbits : Nat
  batchSize : Nat
  seed : Option Nat
  startFromScratch : Nat
  maxDocuments : Option Nat
  tokenizer : List Char
  deriving DecidableEq

/-- What is written. -/
def Stored.toJ (c : Stored) : J R :=
  .obj [entry "nbits" (natJ c.nbits), entry "batch_size" (natJ c.batchSize), entry "seed" (optJ natJ c.seed),
    entry "start_from_scratch" (natJ c.startFromScratch), entry "max_documents" (optJ natJ c.maxDocuments),
    entry "fts_tokenizer" (.str c.tokenizer)]

/-- What is read; `scratch` is the default of `start_from_scratch`. -/
def readStored (scratch : Nat) (v : J R) : Option Stored := do
  let l ← fields v
  let nbits ← field "nbits" readNat none l
  let batchSize ← field "batch_size" readNat none l
  let seed ← field "seed" (readOpt readNat) (some none) l
  let startFromScratch ← field "start_from_scratch" readNat (some scratch) l
  let maxDocuments ← field "max_documents" (readOpt readNat) (some none) l
  let tokenizer ← field "fts_tokenizer" readStr (some "unicode61".toList) l
  return ⟨nbits, batchSize, seed, startFromScratch, maxDocuments, tokenizer⟩

/-- The text written by `set_index_config`: /repo/next-plaid-api/src/state.rs:489-498. -/
def Stored.text (F : Reals R) (c : Stored) : List Char := pretty F c.toJ

/-- The part of `get_index_config` that reads the file: /repo/next-plaid-api/src/state.rs:473-477. -/
def loadStored (F : Reals R) (scratch : Nat) (file : Option (List Char)) : Option Stored :=
  file.bind fun t => (parse F t).bind (readStored scratch)

/-! ### The state and the project of a colgrep index -/

/-- `FileInfo`: /repo/colgrep/src/index/state.rs:38-50. -/
structure Info where
  hash : Nat
  mtime : Nat
  size : Nat
  deriving DecidableEq

def Info.toJ (i : Info) : J R := .obj [entry "content_hash" (natJ i.hash), entry "mtime" (natJ i.mtime), entry "size" (natJ i.size)]

def readInfo (v : J R) : Option Info := do
  let l ← fields v
  let hash ← field "content_hash" readNat none l
  let mtime ← field "mtime" readNat none l
  let size ← field "size" readNat (some 0) l
  return ⟨hash, mtime, size⟩

/-- `IndexState`: /repo/colgrep/src/index/state.rs:17-36.  The map and the set are in the order in which they are written. -/
structure State where
  version : List Char
  format : Nat
  files : List (List Char × Info)
  ignored : List (List Char)
  searches : Nat
  dirty : Bool
  deriving DecidableEq

def State.toJ (s : State) : J R :=
  .obj [entry "cli_version" (.str s.version), entry "index_format_version" (natJ s.format),
    entry "files" (.obj (s.files.map fun e => (e.1, e.2.toJ))), entry "ignored_files" (.arr (s.ignored.map .str)),
    entry "search_count" (natJ s.searches), entry "dirty" (.bool s.dirty)]

def readState (v : J R) : Option State := do
  let l ← fields v
  let version ← field "cli_version" readStr (some []) l
  let format ← field "index_format_version" readNat32 (some 0) l
  let files ← field "files" (readMap readInfo) none l
  let ignored ← field "ignored_files" (readList readStr) (some []) l
  let searches ← field "search_count" readNat (some 0) l
  let dirty ← field "dirty" readBool (some false) l
  return ⟨version, format, files, ignored, searches, dirty⟩

/-- `IndexState::default`. -/
def State.empty : State := ⟨[], 0, [], [], 0, false⟩

/-- The stamp put on a state that is saved: /repo/colgrep/src/index/state.rs:86-89. -/
def State.stamped (version : List Char) (s : State) : State := { s with version := version, format := 2 }

/-- The text written by `IndexState::save`: /repo/colgrep/src/index/state.rs:83-104. -/
def State.text (F : Reals R) (version : List Char) (s : State) : List Char := pretty F (s.stamped version).toJ

/-- `IndexState::load`: /repo/colgrep/src/index/state.rs:67-75; `none` is an error. -/
def loadState (F : Reals R) : Option (List Char) → Option State
  | none => some State.empty
  | some t => (parse F t).bind readState

/-- `ProjectMetadata`: /repo/colgrep/src/index/paths.rs:21-33. -/
structure Project where
  path : List Char
  name : List Char
  model : Option (List Char)
  deriving DecidableEq

def Project.toJ (p : Project) : J R :=
  .obj [entry "project_path" (.str p.path), entry "project_name" (.str p.name), entry "model" (optJ .str p.model)]

def readProject (v : J R) : Option Project := do
  let l ← fields v
  let path ← field "project_path" readStr none l
  let name ← field "project_name" readStr none l
  let model ← field "model" (readOpt readStr) (some none) l
  return ⟨path, name, model⟩

/-- The text written by `ProjectMetadata::save`: /repo/colgrep/src/index/paths.rs:56-62. -/
def Project.text (F : Reals R) (p : Project) : List Char := pretty F p.toJ

/-- `ProjectMetadata::load`: /repo/colgrep/src/index/paths.rs:49-54; `none` is an error. -/
def loadProject (F : Reals R) (file : Option (List Char)) : Option Project := file.bind fun t => (parse F t).bind readProject

/-! ### Writing a file -/

/-- A file that is emptied and then written (`File::create` and `to_writer_pretty`: /repo/next-plaid-api/src/state.rs:493-496),
when the process is killed: before step 0 the file is as before, step 0 empties it, every further step writes one character.
Simplified: the process may also be killed within a character. -/
def overwritten (old : Option (List Char)) (new : List Char) : Nat → Option (List Char)
  | 0 => old
  | n + 1 => some (new.take n)

/-- A temporary file and the file itself, when the temporary file is written and then renamed to the file:
/repo/colgrep/src/index/state.rs:94-102. -/
def replaced (old : Option (List Char)) (new : List Char) (n : Nat) : Option (List Char) × Option (List Char) :=
  if n ≤ new.length + 1 then (overwritten none new n, old) else (none, some new)

/-! ### The configuration in a running server -/

/-- The configuration of one index: in memory and on the disk. -/
structure Conf where
  cache : Option Stored
  file : Option (List Char)

/-- `get_index_config`: /repo/next-plaid-api/src/state.rs:464-487. -/
def Conf.get (F : Reals R) (scratch : Nat) (s : Conf) : Option Stored × Conf :=
  match s.cache with
  | some c => (some c, s)
  | none =>
    match loadStored F scratch s.file with
    | none => (none, s)
    | some c => (some c, { s with cache := some c })

/-- `set_index_config`: /repo/next-plaid-api/src/state.rs:489-505. -/
def Conf.set (F : Reals R) (c : Stored) (_s : Conf) : Conf := ⟨some c, some (c.text F)⟩

/-- `update_index_config` (`PUT /indices/{name}/config`): /repo/next-plaid-api/src/handlers/documents.rs:1619-1660; `none` is
"index not found". -/
def Conf.put (F : Reals R) (scratch : Nat) (max : Option Nat) (s : Conf) : Option Stored × Conf :=
  match s.get F scratch with
  | (none, s) => (none, s)
  | (some c, s) => (some { c with maxDocuments := max }, s.set F { c with maxDocuments := max })

/-- The server is stopped and started again, or the entry is dropped (`invalidate_config_cache`:
/repo/next-plaid-api/src/state.rs:507-511). -/
def Conf.restart (s : Conf) : Conf := { s with cache := none }

/-- The server is killed in `set_index_config` after step `n`, and started again. -/
def Conf.killed (F : Reals R) (c : Stored) (n : Nat) (s : Conf) : Conf := ⟨none, overwritten s.file (c.text F) n⟩

/-- What happens to the configuration of an index. -/
inductive ConfStep where
  | declare (c : Stored)
  | put (max : Option Nat)
  | look
  | restart

/-- One step. -/
def Conf.step (F : Reals R) (scratch : Nat) (s : Conf) : ConfStep → Conf
  | .declare c => s.set F c
  | .put m => (s.put F scratch m).2
  | .look => (s.get F scratch).2
  | .restart => s.restart

end NextPlaid.Records
