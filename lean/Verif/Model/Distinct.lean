import Verif.Model.Db

/-!
Model of `get_distinct_strings`, /repo/next-plaid/src/filtering.rs:2061-2123, on the tables of
`Model/Db.lean` (split layout).
-/

namespace NextPlaid.Db
open NextPlaid

variable {S : Sql}

/-- What the enumeration uses of SQLite: `str` is `row.get::<_, String>` (none: the value is not text and
rusqlite refuses the conversion), `same` the comparison of `DISTINCT`, `int` an integer as a value. -/
structure Texts (S : Sql) where
  str : S.V → Option String
  same : S.V → S.V → Bool
  int : Int → S.V

/-- `get_schema_columns`: /repo/next-plaid/src/filtering.rs:537-562.  The content id is left out. -/
def schema (t : Tables S) : List String :=
  "_subset_" :: (t.thinCols.map (·.1) ++ t.fatCols.map (·.1))

/-- One column of one row of a table with columns `cols`. -/
def cellOf (cols : List (String × S.Ty)) (vals : List S.V) (col : String) : S.V :=
  ((((cols.map (·.1)).zip vals).find? fun p => p.1 == col).map (·.2)).getD S.null

/-- `SELECT "col" FROM METADATA_CONTENT`, or from `METADATA` for a thin column:
/repo/next-plaid/src/filtering.rs:2100-2110. -/
def selectColumn (Q : Texts S) (t : Tables S) (col : String) : List S.V :=
  if isThin col then
    t.thin.map fun r => if col = "_subset_" then Q.int r.subset else cellOf t.thinCols r.vals col
  else t.fat.map fun f => cellOf t.fatCols f.vals col

/-- `DISTINCT`. -/
def dedupBy (same : S.V → S.V → Bool) : List S.V → List S.V
  | [] => []
  | v :: l => v :: (dedupBy same l).filter fun w => !same v w

/-- The loop over the rows: /repo/next-plaid/src/filtering.rs:2111-2119.  `row?` ends the call at the
first value that is not text. -/
def readTexts (Q : Texts S) : List S.V → Res (List String)
  | [] => .ok []
  | v :: l =>
    if S.isNull v then readTexts Q l
    else
      match Q.str v with
      | none => .error .err
      | some s => do
        let rest ← readTexts Q l
        .ok (s :: rest)

/-- `get_distinct_strings`: /repo/next-plaid/src/filtering.rs:2080-2123.  SQL leaves the order of the
values open: `order` is the order SQLite happens to produce. -/
def distinctStrings (Q : Texts S) (order : List S.V → List S.V) (db : Option (Tables S)) (col : String) :
    Res (List String) :=
  match db with
  | none => .ok []
  | some t =>
    if !validName col then .error .err
    else if !(schema t).contains col then .ok []
    else readTexts Q (order (dedupBy Q.same ((selectColumn Q t col).filter fun v => !S.isNull v)))

end NextPlaid.Db
