import Verif.Model.SearchApi

/-!
The metadata endpoints of the server: /repo/next-plaid-api/src/handlers/metadata.rs.

Simplified: `Refusal` and the conditions are those of `SearchApi` (a condition with its parameters is a pair: whether it is valid, and the rows that
satisfy it); logging and timing are left out; `spawn_blocking` always finishes. I/O errors of SQLite are left out.
-/

namespace NextPlaid.MetaApi
open NextPlaid NextPlaid.Db NextPlaid.SearchApi

variable {S : Sql}

/-- What a request finds on disk at one moment: whether there is an index (`index_exists_on_disk`) and its metadata database. A request looks several
times and others may change the index in between, so a request is given the disk as a function of the number of the look. -/
structure Disk (S : Sql) where
  index : Bool
  db : Option (Tables S)

/-- `CheckMetadataResponse`: /repo/next-plaid-api/src/models.rs:345-358. -/
structure Check where
  existingIds : List Int
  missingIds : List Int
  existingCount : Nat
  missingCount : Nat
deriving DecidableEq, Repr

/-- An error of the library becomes the given answer. A panic ends the task, which is an internal error (`Task failed`). -/
def answerTo {A : Type} (onErr : Refusal) : Res A → Except Refusal A
  | .ok a => .ok a
  | .error .panic => .error .internal
  | .error .err => .error onErr

/-- `check_metadata`: /repo/next-plaid-api/src/handlers/metadata.rs:38-122. The database is looked for (look 1) and read (look 2). -/
def check (rowOrder : List (OutRow S) → List (OutRow S)) (d : Nat → Disk S) (ids : List Int) : Except Refusal Check :=
  if !(d 0).index then .error .indexNotFound
  else if ids.isEmpty then .ok ⟨[], [], 0, 0⟩
  else if (d 1).db.isNone then .error .metadataNotFound
  else do
    let found ← answerTo .internal (get rowOrder (d 2).db none (some ids))
    let existing := ids.filter fun id => (found.map (·.subset)).contains id
    let missing := ids.filter fun id => !(found.map (·.subset)).contains id
    .ok ⟨existing, missing, existing.length, missing.length⟩

/-- `query_metadata`: /repo/next-plaid-api/src/handlers/metadata.rs:140-192; the number of documents is the length of the list. -/
def query (d : Nat → Disk S) (cond : Bool × (OutRow S → Bool)) : Except Refusal (List Int) :=
  if !(d 0).index then .error .indexNotFound
  else if (d 1).db.isNone then .error .metadataNotFound
  else answerTo .badRequest (whereCondition (d 2).db cond.1 cond.2)

/-- `get_metadata`: /repo/next-plaid-api/src/handlers/metadata.rs:210-277. -/
def getMetadata (rowOrder : List (OutRow S) → List (OutRow S)) (d : Nat → Disk S) (cond : Option (Bool × (OutRow S → Bool)))
    (ids : Option (List Int)) (limit : Option Nat) : Except Refusal (List (OutRow S)) :=
  if !(d 0).index then .error .indexNotFound
  else if ids.isSome && cond.isSome then .error .badRequest
  else if (d 1).db.isNone then .error .metadataNotFound
  else do
    let rows ← answerTo .internal (get rowOrder (d 2).db cond ids)
    .ok (limit.elim rows fun n => rows.take n)

/-- `get_all_metadata`: /repo/next-plaid-api/src/handlers/metadata.rs:293-339. -/
def getAll (rowOrder : List (OutRow S) → List (OutRow S)) (d : Nat → Disk S) : Except Refusal (List (OutRow S)) :=
  if !(d 0).index then .error .indexNotFound
  else if (d 1).db.isNone then .error .metadataNotFound
  else answerTo .internal (get rowOrder (d 2).db none none)

/-- `get_metadata_count`: /repo/next-plaid-api/src/handlers/metadata.rs:354-402: the number of rows and whether there is a database. -/
def countMetadata (d : Nat → Disk S) : Except Refusal (Nat × Bool) :=
  if !(d 0).index then .error .indexNotFound
  else if (d 1).db.isNone then .ok (0, false)
  else .ok (count (d 2).db, true)

/-- `update_metadata`: /repo/next-plaid-api/src/handlers/metadata.rs:424-484. `updates` is `none` if the JSON value is not an object. The answer is
the number of updated rows and the new database (of the last look). -/
def updateMetadata (d : Nat → Disk S) (cond : Bool × (OutRow S → Bool)) (updates : Option (List (String × S.V))) :
    Except Refusal (Option (Tables S) × Nat) :=
  if !(d 0).index then .error .indexNotFound
  else updates.elim (.error .badRequest) fun upd =>
    if (d 1).db.isNone then .error .metadataNotFound
    else answerTo .badRequest (updateWhere (d 2).db cond.1 cond.2 upd)

end NextPlaid.MetaApi
