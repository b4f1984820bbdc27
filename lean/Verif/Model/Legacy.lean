import Verif.Model.Db

/-!
Model of metadata databases written by earlier versions, /repo/next-plaid/src/filtering.rs.

Earlier versions kept all columns in the one table `METADATA`, with `_subset_` as its primary key
(version 0) or as a plain column (version 1).  This version still reads and changes such databases and
turns version 0 into version 1 at the first deletion; it never turns them into the split layout of
`Verif.Model.Db`.  The same conventions as there apply: a failing call leaves the database as it was.
-/

namespace NextPlaid.Db
open NextPlaid

variable {S : Sql}

/-- A database in a single-table layout: `PRAGMA user_version` (0 or 1), whether `_subset_` is the
primary key, the other columns, and the rows in the order of their rowids.  There is no `_content_id_`:
that field of a row is not read. -/
structure Flat (S : Sql) where
  version : Nat
  pk : Bool
  cols : List (String × S.Ty)
  rows : List (ThinRow S)

/-- A metadata database of any version.  `is_split_schema`
(/repo/next-plaid/src/filtering.rs:747-755) tells which of the two it is. -/
inductive AnyDb (S : Sql)
  | flat (t : Flat S)
  | split (t : Tables S)

/-! ### Moving to version 1 -/

/-- `ensure_fast_subset_schema`: /repo/next-plaid/src/filtering.rs:792-877.  Rebuilding stores every value
again in a column of the same type.  A column without a declared type would become `TEXT`
(lines 842-846); columns always have one, as `infer_sql_type` gives one to each. -/
def toV1 (t : Flat S) : Flat S :=
  if 1 ≤ t.version then t
  else if !t.pk then { t with version := 1 }
  else { version := 1, pk := false, cols := t.cols,
         rows := t.rows.map fun r => { r with vals := (t.cols.zip r.vals).map fun p => S.cell p.1.2 p.2 } }

/-! ### Appending rows -/

/-- `INSERT INTO METADATA`: a primary key cannot repeat. -/
def insertFlatRow (t : Flat S) (id : Int) (it : Item S) : Res (Flat S) :=
  if t.pk && t.rows.any fun r => r.subset == id then .error .err
  else .ok { t with rows := t.rows ++ [⟨id, 0, rowVals t.cols it⟩] }

/-- The loop over a batch: /repo/next-plaid/src/filtering.rs:930-945, 1441-1459. -/
def insertFlat (t : Flat S) : List (Int × Item S) → Res (Flat S)
  | [] => .ok t
  | (id, it) :: rest => do
    let t' ← insertFlatRow t id it
    insertFlat t' rest

/-- `has_new_columns`: /repo/next-plaid/src/filtering.rs:1374-1379. -/
def hasNew (t : Flat S) (items : List (Item S)) : Bool :=
  (allKeys items).any fun k => !(t.cols.map (·.1)).contains k

/-- `ALTER TABLE METADATA ADD COLUMN`. -/
def addFlat (t : Flat S) (new : List (String × S.Ty)) : Flat S :=
  { t with
    cols := t.cols ++ new
    rows := t.rows.map fun r => { r with vals := r.vals ++ new.map fun _ => S.null } }

/-- The path of `update` with new columns: /repo/next-plaid/src/filtering.rs:1391-1462. -/
def updateNew (t : Flat S) (items : List (Item S)) (ids : List Int) : Res (Flat S) := do
  let new ← scanKeys (t.cols.map (·.1)) (allKeys items) []
  let newCols := new.map fun c => (c, colType items c)
  if distinctNames ("_subset_" :: (t.cols.map (·.1) ++ new)) then
    insertFlat (addFlat t newCols) (ids.zip items)
  else .error .err

/-- `update` for a single-table layout: /repo/next-plaid/src/filtering.rs:1355-1462.  Without new columns
`insert_fixed_metadata_rows` (lines 911-949) is used, which wants every row to be an object. -/
def updateFlat (t : Flat S) (items : List (Item S)) (ids : List Int) : Res (Flat S) :=
  if hasNew t items then updateNew t items ids
  else if items.all Option.isSome then insertFlat t (ids.zip items)
  else .error .err

/-- The single-table branch of `update`. -/
def updateFlatAll (t : Flat S) (items : List (Item S)) (ids : List Int) : Res (Option (AnyDb S) × Nat) := do
  let t' ← updateFlat t items ids
  .ok (some (.flat t'), items.length)

/-- The split branch of a call, its result seen as a store. -/
def asAny : Res (Option (Tables S) × Nat) → Res (Option (AnyDb S) × Nat)
  | .ok (db, n) => .ok (db.map .split, n)
  | .error e => .error e

/-- `update`: /repo/next-plaid/src/filtering.rs:1332-1463. -/
def AnyDb.update (db : Option (AnyDb S)) (items : List (Item S)) (ids : List Int) :
    Res (Option (AnyDb S) × Nat) :=
  if items = [] then .ok (db, 0)
  else if items.length ≠ ids.length then .error .err
  else
    match db with
    | none => .error .err
    | some (.split t) => asAny (Db.update (some t) items ids)
    | some (.flat t) => updateFlatAll t items ids

/-! ### Deletion -/

/-- The transaction of `delete` for a single-table layout, after the move to version 1:
/repo/next-plaid/src/filtering.rs:1669-1763. -/
def deleteFlat (t : Flat S) (ids : List Int) : Flat S × Nat :=
  let originalCount := maxOr (t.rows.map (·.subset)) + 1
  let kept := t.rows.filter fun r => !ids.contains r.subset
  ({ t with rows := renumber (validIds ids originalCount) kept }, t.rows.length - kept.length)

/-- `delete`: /repo/next-plaid/src/filtering.rs:1646-1765. -/
def AnyDb.delete (db : Option (AnyDb S)) (ids : List Int) : Option (AnyDb S) × Nat :=
  if ids = [] then (db, 0)
  else
    match db with
    | none => (none, 0)
    | some (.split t) => ((Db.delete (some t) ids).1.map .split, (Db.delete (some t) ids).2)
    | some (.flat t) => (some (.flat (deleteFlat (toV1 t) ids).1), (deleteFlat (toV1 t) ids).2)

/-! ### Reading -/

/-- A row with its column names. -/
def Flat.shown (t : Flat S) (r : ThinRow S) : OutRow S := ⟨r.subset, (t.cols.map (·.1)).zip r.vals⟩

/-- `SELECT * FROM METADATA`. -/
def Flat.out (t : Flat S) : List (OutRow S) := t.rows.map t.shown

/-- The lookup by ids: /repo/next-plaid/src/filtering.rs:2179-2218.  `order` is the order in which SQLite
happens to return the rows of a chunk. -/
def lookupFlat (order : List (OutRow S) → List (OutRow S)) (t : Flat S) (ids : List Int) : List (OutRow S) :=
  let results := (List.range (Index.numChunksFor ids.length paramLimit)).flatMap fun i =>
    order (t.out.filter fun r => (Index.chunkSlice ids paramLimit i).contains r.subset)
  drain (results.foldl mapInsert []) ids

/-- The single-table branch of `get`: /repo/next-plaid/src/filtering.rs:2162-2249. -/
def getFlat (order : List (OutRow S) → List (OutRow S)) (t : Flat S)
    (cond : Option (Bool × (OutRow S → Bool))) (ids : Option (List Int)) : Res (List (OutRow S)) :=
  match cond, ids with
  | some (false, _), _ => .error .err
  | some (true, sat), _ => .ok (sortBySubset (t.out.filter sat))
  | none, some ids => .ok (lookupFlat order t ids)
  | none, none => .ok (sortBySubset t.out)

/-- `get`: /repo/next-plaid/src/filtering.rs:2143-2250. -/
def AnyDb.get (order : List (OutRow S) → List (OutRow S)) (db : Option (AnyDb S))
    (cond : Option (Bool × (OutRow S → Bool))) (ids : Option (List Int)) : Res (List (OutRow S)) :=
  if cond.isSome && ids.isSome then .error .err
  else
    match db with
    | none => .ok []
    | some (.split t) => Db.get order (some t) cond ids
    | some (.flat t) => getFlat order t cond ids

/-- `where_condition`: /repo/next-plaid/src/filtering.rs:1880-1923. -/
def AnyDb.whereCondition (db : Option (AnyDb S)) (valid : Bool) (sat : OutRow S → Bool) : Res (List Int) :=
  match db with
  | none => .error .err
  | some (.split t) => Db.whereCondition (some t) valid sat
  | some (.flat t) => if valid then .ok ((t.out.filter sat).map (·.subset)) else .error .err

/-- `count`: /repo/next-plaid/src/filtering.rs:2679-2689. -/
def AnyDb.count (db : Option (AnyDb S)) : Nat :=
  match db with
  | none => 0
  | some (.split t) => Db.count (some t)
  | some (.flat t) => t.rows.length

/-! ### Changing values -/

/-- `SET col = value, ..` on a row if it satisfies the condition. -/
def setWhere (t : Flat S) (sat : OutRow S → Bool) (upd : List (String × S.V)) (r : ThinRow S) : ThinRow S :=
  if sat (t.shown r) then { r with vals := setVals t.cols upd r.vals } else r

/-- `update_where` for a single-table layout, one `UPDATE` statement:
/repo/next-plaid/src/filtering.rs:2472-2569.  As in `Db.updateWhere`, column names are matched exactly. -/
def updateWhereFlat (t : Flat S) (valid : Bool) (sat : OutRow S → Bool) (upd : List (String × S.V)) :
    Res (Option (AnyDb S) × Nat) :=
  if upd = [] then .ok (some (.flat t), 0)
  else if !valid then .error .err
  else if upd.any fun u => u.1 == "_subset_" || !(t.cols.any fun c => c.1 == u.1) then .error .err
  else .ok (some (.flat { t with rows := t.rows.map (setWhere t sat upd) }), (t.out.filter sat).length)

/-- `update_where`: /repo/next-plaid/src/filtering.rs:2457-2569. -/
def AnyDb.updateWhere (db : Option (AnyDb S)) (valid : Bool) (sat : OutRow S → Bool) (upd : List (String × S.V)) :
    Res (Option (AnyDb S) × Nat) :=
  match db with
  | none => .error .err
  | some (.split t) => asAny (Db.updateWhere (some t) valid sat upd)
  | some (.flat t) => updateWhereFlat t valid sat upd

end NextPlaid.Db
