import Verif.Model.Store

/-!
Model of what the API server does to an index directory: /repo/next-plaid-api/src/handlers/documents.rs.

Every operation returns the list of directory contents it goes through, in order (without the initial one), and its
result.  A process that is killed leaves the initial contents or one of this list.  A change of the index files, a
transaction on the metadata database and a change of the keyword index are one step each; interruptions inside one
change of the index files are not covered here.  All functions run under the lock of the index (the locks themselves
are in `Model.Locks`).
-/

namespace NextPlaid.Server
open NextPlaid NextPlaid.Index NextPlaid.Db

variable {E : Env} {S : Sql} {T : TextEnv S}

/-- The contents after a number of steps. -/
def final (s : Store E T) (trace : List (Store E T)) : Store E T := trace.getLast?.getD s

/-- documents.rs:166-177: the counts are compared again. -/
def verify (s : Store E T) : Res Bool :=
  match loadMeta s.disk with
  | .error e => .error e
  | .ok m => if m.numDocs = count s.db then .ok true else .error .err

/-- documents.rs:145-152: the metadata has more rows. -/
def repairDb (s : Store E T) (ids : List Int) : List (Store E T) × Res Bool :=
  let s' : Store E T := { s with db := (delete s.db ids).1 }
  ([s'], verify s')

/-- documents.rs:153-164: the index has more documents; `delete_with_options(.., false)`. -/
def repairIndex (s : Store E T) (ids : List Int) : List (Store E T) × Res Bool :=
  match load s.disk with
  | .error e => ([], .error e)
  | .ok _ =>
    match deleteFromIndex s.disk ids with
    | .error e => ([], .error e)
    | .ok (d, _) => ([{ s with disk := d }], verify { s with disk := d })

/-- `repair_index_db_sync`: documents.rs:109-192. -/
def repair (s : Store E T) : List (Store E T) × Res Bool :=
  if s.disk.metadata.isNone then ([], .ok false)
  else if s.db.isNone then ([], .ok false)
  else
    match loadMeta s.disk with
    | .error e => ([], .error e)
    | .ok m =>
      if m.numDocs = count s.db then ([], .ok false)
      else if m.numDocs < count s.db then repairDb s (idRange m.numDocs (count s.db - m.numDocs))
      else repairIndex s (idRange (count s.db) (m.numDocs - count s.db))

/-- The second and third step of a deletion: /repo/next-plaid/src/index.rs:1818-1845.  `n` is the number of documents
the handle was opened with. -/
def deleteRowsSteps (s : Store E T) (n : Nat) (ids : List Int) : List (Store E T) :=
  match (delete s.db ids).1 with
  | none => []
  | some t => [{ s with db := some t }, { s with db := some t, fts := ftsAfterDelete n ids t s.fts }]

/-- `MmapIndex::delete` on a handle opened when there were `n` documents: /repo/next-plaid/src/index.rs:1790-1848. -/
def deleteSteps (s : Store E T) (n : Nat) (ids : List Int) : List (Store E T) × Res Nat :=
  match deleteFromIndex s.disk ids with
  | .error e => ([], .error e)
  | .ok (d, k) => ({ s with disk := d } :: (if k = 0 then [] else deleteRowsSteps { s with disk := d } n ids), .ok k)

/-- `evict_oldest_documents`: documents.rs:633-656; the handle was opened after the update. -/
def evict (s : Store E T) (max : Nat) : List (Store E T) × Res Nat :=
  match load s.disk with
  | .error e => ([], .error e)
  | .ok x =>
    if x.metadata.numDocs ≤ max then ([], .ok 0)
    else
      let r := deleteSteps s x.metadata.numDocs (idRange 0 (x.metadata.numDocs - max))
      (r.1, match r.2, load (final s r.1).disk with
        | .ok k, .ok _ => .ok k
        | .ok _, .error e => .error e
        | .error e, _ => .error e)

/-- The eviction step of a batch, documents.rs:503-520: no limit, no eviction; a failure is only logged. -/
def evictSteps (s : Store E T) : Option Nat → List (Store E T)
  | none => []
  | some max => (evict s max).1

/-- documents.rs:489-500: a failure of the keyword index is only logged. -/
def keywordSteps (s : Store E T) (items : List (Item S)) (ids : List Int) (tk : Tokenizer) : List (Store E T) :=
  match ftsIndex s.fts items ids tk with
  | .error _ => []
  | .ok f => [{ s with fts := f }]

/-- documents.rs:475-486: the documents just added are removed again; a failure of that is only logged. -/
def rollbackSteps (s : Store E T) (ids : List Int) : List (Store E T) :=
  match deleteFromIndex s.disk ids with
  | .error _ => []
  | .ok (d, _) => [{ s with disk := d }]

/-- documents.rs:524-525: the result of the final load. -/
def published (s : Store E T) (ids : List Int) : Res (List Int) :=
  match load s.disk with
  | .error e => .error e
  | .ok _ => .ok ids

/-- From the eviction on: documents.rs:503-525. -/
def batchEvict (s : Store E T) (ids : List Int) (max : Option Nat) : List (Store E T) × Res (List Int) :=
  (evictSteps s max, published (final s (evictSteps s max)) ids)

/-- From the keyword index on: documents.rs:489-525. -/
def batchKeywords (s : Store E T) (items : List (Item S)) (ids : List Int) (tk : Tokenizer) (max : Option Nat) :
    List (Store E T) × Res (List Int) :=
  let k := keywordSteps s items ids tk
  let r := batchEvict (final s k) ids max
  (k ++ r.1, r.2)

/-- From the metadata on: documents.rs:464-525.  When the database cannot be created it is shown as absent (the code can
leave a file without rows). -/
def batchRows (s : Store E T) (items : List (Item S)) (ids : List Int) (tk : Tokenizer) (max : Option Nat) :
    List (Store E T) × Res (List Int) :=
  match addMeta s.db items ids with
  | .error e => (rollbackSteps s ids, .error e)
  | .ok (db, _) =>
    let r := batchKeywords { s with db := db } items ids tk max
    ({ s with db := db } :: r.1, r.2)

/-- From the index update on: documents.rs:443-525.  A failing update is shown as changing nothing. -/
def batchUpdate (s : Store E T) (docs : List (List E.Row)) (items : List (Item S)) (cfg : Cfg) (tk : Tokenizer)
    (max : Option Nat) : List (Store E T) × Res (List Int) :=
  match updateOrCreate s.disk docs cfg with
  | .error e => ([], .error e)
  | .ok (d, ids) =>
    let r := batchRows { s with disk := d } items ids tk max
    ({ s with disk := d } :: r.1, r.2)

/-- `process_batch`: documents.rs:392-581; `max` is the configured `max_documents`. -/
def processBatch (s : Store E T) (docs : List (List E.Row)) (items : List (Item S)) (cfg : Cfg) (tk : Tokenizer)
    (max : Option Nat) : List (Store E T) × Res (List Int) :=
  match repair s with
  | (t, .error e) => (t, .error e)
  | (t, .ok _) =>
    let r := batchUpdate (final s t) docs items cfg tk max
    (t ++ r.1, r.2)

/-- A condition of a deletion request: whether the validator accepts it, and which rows satisfy it, given their id and
the values of their columns. -/
structure Cond (S : Sql) where
  valid : Bool
  holds : Int → (String → S.V) → Bool

/-- `filtering::where_condition` for the condition. -/
def Cond.ids (c : Cond S) (db : Option (Tables S)) : Res (List Int) :=
  whereCondition db c.valid fun r => c.holds r.subset r.value

/-- The ids to delete for one condition: documents.rs:866-885; a failing condition is skipped. -/
def condIds (c : Cond S) (db : Option (Tables S)) : List Int :=
  match c.ids db with
  | .error _ => []
  | .ok ids => ids

/-- One condition: documents.rs:886-908; a failing deletion is skipped. -/
def condSteps (s : Store E T) (n : Nat) (c : Cond S) : List (Store E T) :=
  if condIds c s.db = [] then [] else (deleteSteps s n (condIds c s.db)).1

/-- The loop over the conditions: documents.rs:864-909. -/
def condsSteps (s : Store E T) (n : Nat) : List (Cond S) → List (Store E T)
  | [] => []
  | c :: cs =>
    let t := condSteps s n c
    t ++ condsSteps (final s t) n cs

/-- From the load on: documents.rs:857-920. -/
def deleteBatchLoaded (s : Store E T) (conds : List (Cond S)) : List (Store E T) × Res Nat :=
  match load s.disk with
  | .error e => ([], .error e)
  | .ok x =>
    let t := condsSteps s x.metadata.numDocs conds
    (t, match load (final s t).disk with
      | .error e => .error e
      | .ok y => .ok y.metadata.numDocs)

/-- `process_delete_batch`: documents.rs:830-959; the result is the number of remaining documents. -/
def processDeleteBatch (s : Store E T) (conds : List (Cond S)) : List (Store E T) × Res Nat :=
  match repair s with
  | (t, .error e) => (t, .error e)
  | (t, .ok _) =>
    let r := deleteBatchLoaded (final s t) conds
    (t ++ r.1, r.2)

end NextPlaid.Server
