import Verif.Model.Index

/-!
Model of the metadata store, /repo/next-plaid/src/filtering.rs.

SQLite is modelled as two tables (lists of rows in insertion order).  Statements of one transaction
are applied together; a failing call leaves the tables as they were (the transaction is rolled back),
so it is an `Except.error` without a new state.  Column values and declared types are parameters.
-/

namespace NextPlaid.Db
open NextPlaid

/-- JSON values and SQLite column types.  `cell ty v` is what `row_to_json_value`
(/repo/next-plaid/src/filtering.rs:2375-2396) reads back from a column declared `ty` after
`json_to_sql v` (lines 634-649) was stored in it, i.e. both conversions and SQLite's type affinity.
`infer` is `infer_sql_type` (lines 617-631) and `text` the type name `TEXT`. -/
structure Sql where
  V : Type
  null : V
  isNull : V → Bool
  Ty : Type
  text : Ty
  infer : V → Ty
  cell : Ty → V → V

/-- NULL is stored as NULL whatever the column type. -/
structure Sql.Lawful (S : Sql) : Prop where
  cell_null : ∀ ty, S.cell ty S.null = S.null

variable {S : Sql}

/-- A metadata row as the caller gives it: a JSON object (keys are distinct), or something else. -/
abbrev Item (S : Sql) := Option (List (String × S.V))

/-- `obj.get(col).unwrap_or(&Value::Null)`, and NULL for a value that is not an object
(e.g. lines 1276-1284). -/
def Item.value (it : Item S) (col : String) : S.V :=
  match it with
  | some obj => ((obj.find? fun p => p.1 == col).map (·.2)).getD S.null
  | none => S.null

/-- A row of `METADATA`: `_subset_`, `_content_id_`, and the thin columns. -/
structure ThinRow (S : Sql) where
  subset : Int
  cid : Int
  vals : List S.V

/-- A row of `METADATA_CONTENT`. -/
structure FatRow (S : Sql) where
  cid : Int
  vals : List S.V

/-- The database in the split layout (`user_version` 2), the one the code creates. -/
structure Tables (S : Sql) where
  thinCols : List (String × S.Ty)
  fatCols : List (String × S.Ty)
  thin : List (ThinRow S)
  fat : List (FatRow S)

/-! ### Column names -/

/-- `THIN_COLUMNS`, `SUBSET_COLUMN`, `CONTENT_ID_COLUMN`: /repo/next-plaid/src/filtering.rs:79-91. -/
def thinNames : List String :=
  ["_subset_", "_content_id_", "file", "name", "qualified_name", "line", "end_line", "language",
   "unit_type", "complexity", "has_loops", "has_branches", "has_error_handling"]

/-- `is_thin_column`: /repo/next-plaid/src/filtering.rs:754-756. -/
def isThin (col : String) : Bool := thinNames.contains col

/-- `is_valid_column_name`, the regex `^[a-zA-Z_][a-zA-Z0-9_]*$`:
/repo/next-plaid/src/filtering.rs:97-105. -/
def validName (col : String) : Bool :=
  match col.toList with
  | [] => false
  | c :: cs => (c.isAlpha || c == '_') && cs.all fun c => c.isAlphanum || c == '_'

/-- SQLite compares column names without regard to ASCII case; a table with two equal names is
refused. -/
def distinctNames : List String → Bool
  | [] => true
  | c :: cs => !(cs.any fun d => d.toList.map Char.toLower == c.toList.map Char.toLower) && distinctNames cs

/-- The columns of both tables, `CREATE TABLE` / `ALTER TABLE ADD COLUMN` included. -/
def checkNames (thin fat : List String) : Res Unit :=
  if distinctNames ("_subset_" :: "_content_id_" :: thin) && distinctNames ("_content_id_" :: fat)
  then .ok () else .error .err

/-- The scan for new columns: /repo/next-plaid/src/filtering.rs:1176-1195 (creation, nothing known)
and 1504-1530 (update).  A new name that is not an identifier is refused. -/
def scanKeys (known : List String) : (keys acc : List String) → Res (List String)
  | [], acc => .ok acc
  | k :: keys, acc =>
    if known.contains k || acc.contains k then scanKeys known keys acc
    else if validName k then scanKeys known keys (acc ++ [k])
    else .error .err

/-- All keys of a batch, in order. -/
def allKeys (items : List (Item S)) : List String :=
  items.flatMap fun it => match it with
    | some obj => obj.map (·.1)
    | none => []

/-- `column_types`: the type of the first value that is not NULL, else `TEXT`. -/
def colType (items : List (Item S)) (col : String) : S.Ty :=
  match (items.map fun it => it.value col).find? fun v => !S.isNull v with
  | some v => S.infer v
  | none => S.text

/-! ### Insertion -/

/-- The values of a row, one per column. -/
def rowVals (cols : List (String × S.Ty)) (it : Item S) : List S.V :=
  cols.map fun c => S.cell c.2 (it.value c.1)

/-- `INSERT` of one document into both tables: /repo/next-plaid/src/filtering.rs:1265-1299, 1598-1622.
`_content_id_` is the primary key of the content table: a repeated value is refused. -/
def insertRow (t : Tables S) (id cid : Int) (it : Item S) : Res (Tables S) :=
  if t.fat.any fun f => f.cid == cid then .error .err
  else .ok { t with
    fat := t.fat ++ [⟨cid, rowVals t.fatCols it⟩],
    thin := t.thin ++ [⟨id, cid, rowVals t.thinCols it⟩] }

/-- The loop over a batch: document id, content id, row. -/
def insertRows (t : Tables S) : List (Int × Int × Item S) → Res (Tables S)
  | [] => .ok t
  | (id, cid, it) :: rest => do
    let t' ← insertRow t id cid it
    insertRows t' rest

/-- `COALESCE(MAX(col), -1)`. -/
def maxOr (l : List Int) : Int := l.foldl max (-1)

/-- Content ids `next, next + 1, ..` for a batch: /repo/next-plaid/src/filtering.rs:1553-1562, 1599. -/
def numbered (next : Int) : (ids : List Int) → (items : List (Item S)) → List (Int × Int × Item S)
  | id :: ids, it :: items => (id, next, it) :: numbered (next + 1) ids items
  | _, _ => []

/-! ### Creation -/

/-- `try_fixed_schema_from_first_row`: /repo/next-plaid/src/filtering.rs:1030-1067. -/
def tryFixed (items : List (Item S)) : Res (Option (List (String × S.Ty))) :=
  match items with
  | some first :: rest =>
    if first.all fun p => validName p.1 then
      if (allKeys rest).all fun k => first.any fun p => p.1 == k
      then .ok (some (first.map fun p => (p.1, S.infer p.2)))
      else .ok none
    else .error .err
  | _ => .ok none

/-- `CREATE TABLE` for both tables. -/
def createTables (cols : List (String × S.Ty)) : Res (Tables S) := do
  let thin := cols.filter fun c => isThin c.1
  let fat := cols.filter fun c => !isThin c.1
  let _ ← checkNames (thin.map (·.1)) (fat.map (·.1))
  .ok ⟨thin, fat, [], []⟩

/-- `create_with_fixed_columns` and `insert_fixed_metadata_rows_v2`:
/repo/next-plaid/src/filtering.rs:1074-1110, 951-1028.  Every row must be an object. -/
def createFixed (cols : List (String × S.Ty)) (items : List (Item S)) (ids : List Int) : Res (Tables S) := do
  let t ← createTables cols
  if items.all Option.isSome then insertRows t (numbered 0 ids items) else .error .err

/-- The general path of `create`: /repo/next-plaid/src/filtering.rs:1173-1308; the content id of a row
is its document id. -/
def createGeneral (items : List (Item S)) (ids : List Int) : Res (Tables S) := do
  let cols ← scanKeys [] (allKeys items) []
  let t ← createTables (cols.map fun c => (c, colType items c))
  insertRows t ((ids.zip items).map fun p => (p.1, p.1, p.2))

/-- The choice between the two, lines 1167-1171. -/
def createWith (fixed : Option (List (String × S.Ty))) (items : List (Item S)) (ids : List Int) :
    Res (Tables S) :=
  match fixed with
  | some cols => createFixed cols items ids
  | none => createGeneral items ids

/-- `create`: /repo/next-plaid/src/filtering.rs:1141-1308.  An existing database is removed first; an
empty batch leaves none.  Returns the new database and the number of rows. -/
def create (items : List (Item S)) (ids : List Int) : Res (Option (Tables S) × Nat) :=
  if items.length ≠ ids.length then .error .err
  else if items = [] then .ok (none, 0)
  else do
    let fixed ← tryFixed items
    let t ← createWith fixed items ids
    .ok (some t, items.length)

/-! ### Appending rows -/

/-- `ALTER TABLE .. ADD COLUMN`: existing rows get NULL. -/
def addCols (t : Tables S) (newThin newFat : List (String × S.Ty)) : Tables S :=
  { thinCols := t.thinCols ++ newThin
    fatCols := t.fatCols ++ newFat
    thin := t.thin.map fun r => { r with vals := r.vals ++ newThin.map fun _ => S.null }
    fat := t.fat.map fun r => { r with vals := r.vals ++ newFat.map fun _ => S.null } }

/-- `update_v2`: /repo/next-plaid/src/filtering.rs:1465-1627. -/
def updateV2 (t : Tables S) (items : List (Item S)) (ids : List Int) : Res (Tables S) := do
  let known := t.thinCols.map (·.1) ++ t.fatCols.map (·.1)
  let new ← scanKeys known (allKeys items) []
  let newCols := new.map fun c => (c, colType items c)
  let newThin := newCols.filter fun c => isThin c.1
  let newFat := newCols.filter fun c => !isThin c.1
  let _ ← checkNames (t.thinCols.map (·.1) ++ newThin.map (·.1)) (t.fatCols.map (·.1) ++ newFat.map (·.1))
  insertRows (addCols t newThin newFat) (numbered (maxOr (t.fat.map (·.cid)) + 1) ids items)

/-- `update`: /repo/next-plaid/src/filtering.rs:1332-1463 (split layout). -/
def update (db : Option (Tables S)) (items : List (Item S)) (ids : List Int) :
    Res (Option (Tables S) × Nat) :=
  if items = [] then .ok (db, 0)
  else if items.length ≠ ids.length then .error .err
  else
    match db with
    | none => .error .err
    | some t => do
      let t' ← updateV2 t items ids
      .ok (some t', items.length)

/-! ### Deletion -/

/-- The inner `while` that passes over consecutive deleted ids: the last id of the run starting at
`a`, the number of ids consumed after `a`, and the rest.  /repo/next-plaid/src/filtering.rs:1728-1732. -/
def runEnd : (a : Int) → (l : List Int) → Int × Nat × List Int
  | a, [] => (a, 0, [])
  | a, b :: l =>
    if b = a + 1 then
      let r := runEnd b l
      (r.1, r.2.1 + 1, r.2.2)
    else (a, 0, b :: l)

/-- `range_end`: the next deleted id, or beyond every row.  Lines 1737-1741. -/
def gapEnd (limit : Int) : List Int → Int
  | [] => limit
  | b :: _ => b

/-- The range updates `(range_start, range_end, shift)`: /repo/next-plaid/src/filtering.rs:1724-1748
(1811-1833 in the split layout).  `done` ids have been consumed before `sorted`; `limit` is
`max_id + sorted_ids.len() + 1`; `fuel` bounds the number of gaps. -/
def shifts (limit : Int) : (fuel done : Nat) → (sorted : List Int) → List (Int × Int × Int)
  | 0, _, _ => []
  | _ + 1, _, [] => []
  | fuel + 1, done, a :: l =>
    let r := runEnd a l
    let j := done + r.2.1 + 1
    let s := r.1 + 1
    let e := gapEnd limit r.2.2
    (if s < e then [(s, e, (j : Int))] else []) ++ shifts limit fuel j r.2.2

/-- `UPDATE METADATA SET _subset_ = _subset_ - shift WHERE _subset_ >= from AND _subset_ < to`. -/
def shiftRow (u : Int × Int × Int) (r : ThinRow S) : ThinRow S :=
  if u.1 ≤ r.subset ∧ r.subset < u.2.1 then { r with subset := r.subset - u.2.2 } else r

/-- The deleted ids that matter: sorted, without repetitions, in range.  Lines 1699-1702, 1796-1799. -/
def validIds (ids : List Int) (originalCount : Int) : List Int :=
  (Index.sortDedup ids).filter fun id => decide (0 ≤ id ∧ id < originalCount)

/-- Renumbering of the remaining rows: lines 1704-1758, 1801-1850. -/
def renumber (sorted : List Int) (thin : List (ThinRow S)) : List (ThinRow S) :=
  let maxId := maxOr (thin.map (·.subset))
  if 0 ≤ maxId ∧ sorted ≠ [] then
    (shifts (maxId + sorted.length + 1) sorted.length 0 sorted).foldl
      (fun rows u => rows.map (shiftRow u)) thin
  else thin

/-- `delete_v2`: /repo/next-plaid/src/filtering.rs:1767-1854.  `IN (..)` and the temporary table of
`build_in_clause` (/repo/next-plaid/src/text_search.rs:1104-1139) both select the rows whose id is in
the list. -/
def deleteV2 (t : Tables S) (ids : List Int) : Tables S × Nat :=
  let originalCount := maxOr (t.thin.map (·.subset)) + 1
  let kept := t.thin.filter fun r => !ids.contains r.subset
  let fat := t.fat.filter fun f => kept.any fun r => r.cid == f.cid
  ({ t with thin := renumber (validIds ids originalCount) kept, fat := fat },
    t.thin.length - kept.length)

/-- `delete`: /repo/next-plaid/src/filtering.rs:1646-1765 (split layout). -/
def delete (db : Option (Tables S)) (ids : List Int) : Option (Tables S) × Nat :=
  if ids = [] then (db, 0)
  else
    match db with
    | none => (none, 0)
    | some t =>
      let r := deleteV2 t ids
      (some r.1, r.2)

/-! ### Reading -/

/-- A row returned to the caller: `_subset_`, and the other columns by name. -/
structure OutRow (S : Sql) where
  subset : Int
  cols : List (String × S.V)

/-- Value of a column in a returned row; an absent column is NULL. -/
def OutRow.value (r : OutRow S) (col : String) : S.V :=
  ((r.cols.find? fun p => p.1 == col).map (·.2)).getD S.null

/-- `METADATA M JOIN METADATA_CONTENT C ON M._content_id_ = C._content_id_`, without the content id:
/repo/next-plaid/src/filtering.rs:2252-2294. -/
def joined (t : Tables S) : List (OutRow S) :=
  t.thin.flatMap fun r => (t.fat.filter fun f => f.cid == r.cid).map fun f =>
    ⟨r.subset, (t.thinCols.map (·.1)).zip r.vals ++ (t.fatCols.map (·.1)).zip f.vals⟩

/-- One step of `ORDER BY _subset_` (the order among equal ids is left open by SQL; here stable). -/
def insertBySubset (r : OutRow S) : List (OutRow S) → List (OutRow S)
  | [] => [r]
  | s :: l => if r.subset ≤ s.subset then r :: s :: l else s :: insertBySubset r l

def sortBySubset : List (OutRow S) → List (OutRow S)
  | [] => []
  | r :: l => insertBySubset r (sortBySubset l)

/-- `results_map.insert(id, result)`: /repo/next-plaid/src/filtering.rs:2329-2334. -/
def mapInsert (m : List (OutRow S)) (r : OutRow S) : List (OutRow S) :=
  (m.filter fun s => s.subset != r.subset) ++ [r]

/-- `ids.iter().filter_map(|id| results_map.remove(id))`: /repo/next-plaid/src/filtering.rs:2335. -/
def drain (m : List (OutRow S)) : List Int → List (OutRow S)
  | [] => []
  | id :: ids =>
    match m.find? fun r => r.subset == id with
    | some r => r :: drain (m.filter fun r => r.subset != id) ids
    | none => drain m ids

/-- `SELECT .. WHERE M._subset_ IN (chunk)`; SQL leaves the order of the rows open: `order` is the
order SQLite happens to produce. -/
def selectIn (order : List (OutRow S) → List (OutRow S)) (t : Tables S) (chunk : List Int) : List (OutRow S) :=
  order ((joined t).filter fun r => chunk.contains r.subset)

/-- `SQLITE_PARAM_LIMIT`: /repo/next-plaid/src/filtering.rs:47 and text_search.rs:1092. -/
def paramLimit : Nat := 900

/-- The lookup by ids: /repo/next-plaid/src/filtering.rs:2299-2336 (2186-2218 in the old layout). -/
def getByIds (order : List (OutRow S) → List (OutRow S)) (t : Tables S) (ids : List Int) : List (OutRow S) :=
  let results := (List.range (Index.numChunksFor ids.length paramLimit)).flatMap fun i =>
    selectIn order t (Index.chunkSlice ids paramLimit i)
  drain (results.foldl mapInsert []) ids

/-- `get` / `get_v2`: /repo/next-plaid/src/filtering.rs:2143-2372.  `cond` is the condition after
validation: whether it was accepted and which rows satisfy it. -/
def get (order : List (OutRow S) → List (OutRow S)) (db : Option (Tables S))
    (cond : Option (Bool × (OutRow S → Bool))) (ids : Option (List Int)) : Res (List (OutRow S)) :=
  match cond, ids with
  | some _, some _ => .error .err
  | cond, ids =>
    match db with
    | none => .ok []
    | some t =>
      match cond, ids with
      | some (false, _), _ => .error .err
      | some (true, sat), _ => .ok (sortBySubset ((joined t).filter sat))
      | none, some ids => .ok (getByIds order t ids)
      | none, none => .ok (sortBySubset (joined t))

/-- `where_condition`: /repo/next-plaid/src/filtering.rs:1880-1923.  Selecting from `METADATA` alone when
no content column is mentioned gives the same rows, as every row has exactly one content row. -/
def whereCondition (db : Option (Tables S)) (valid : Bool) (sat : OutRow S → Bool) : Res (List Int) :=
  match db with
  | none => .error .err
  | some t => if valid then .ok (((joined t).filter sat).map (·.subset)) else .error .err

/-- `count`: /repo/next-plaid/src/filtering.rs:2679-2689. -/
def count (db : Option (Tables S)) : Nat :=
  match db with
  | none => 0
  | some t => t.thin.length

/-! ### Changing values -/

/-- `SET col = value, ..` on one row of a table with columns `cols`. -/
def setVals (cols : List (String × S.Ty)) (upd : List (String × S.V)) (vals : List S.V) : List S.V :=
  (cols.zip vals).map fun p =>
    match upd.find? fun u => u.1 == p.1.1 with
    | some u => S.cell p.1.2 u.2
    | none => p.2

/-- `update_where` and `update_where_v2`: /repo/next-plaid/src/filtering.rs:2457-2676.  `valid` is the
verdict on the condition.  Column names in `upd` are matched exactly; the code also accepts another
spelling of the same name in ASCII letters, which is not modelled.  The chunked statements act on all
affected rows.  Returns the number of affected rows. -/
def updateWhere (db : Option (Tables S)) (valid : Bool) (sat : OutRow S → Bool) (upd : List (String × S.V)) :
    Res (Option (Tables S) × Nat) :=
  match db with
  | none => .error .err
  | some t =>
    if upd = [] then .ok (some t, 0)
    else if !valid then .error .err
    else if upd.any fun u => u.1 == "_subset_" ||
        !((t.thinCols ++ t.fatCols).any fun c => c.1 == u.1) then .error .err
    else
      let affected := ((joined t).filter sat).map (·.subset)
      let cids := (t.thin.filter fun r => affected.contains r.subset).map (·.cid)
      .ok (some { t with
        thin := t.thin.map fun r => if affected.contains r.subset
          then { r with vals := setVals t.thinCols upd r.vals } else r
        fat := t.fat.map fun f => if cids.contains f.cid
          then { f with vals := setVals t.fatCols upd f.vals } else f }, affected.length)

end NextPlaid.Db
