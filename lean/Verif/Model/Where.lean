import Verif.Spec.Condition
import Verif.Model.Db

/-!
Model of the two ways to select rows with a condition, `where_condition` and `where_condition_regexp`:
/repo/next-plaid/src/filtering.rs lines 535-561, 670-716 and 1880-2059.

SQLite is modelled as far as the query goes: the names are resolved when the statement is prepared, the number of
parameters is checked when they are bound, and the condition is evaluated at every row of the source; the order of
the rows is left to the planner (`plan`). How SQLite reads the text is not modelled: it is taken to read it as the
documented grammar does (`c` beside `text`), which has one reading (`C25_one_reading`); a column whose name is a
keyword of SQL has to be quoted for that. A test of `REGEXP` that cannot be evaluated fails the query; that SQLite
may not evaluate a test whose outcome no longer matters is left out. The text `1 = 1` (numbers) is left out.
-/

namespace NextPlaid.Where
open NextPlaid NextPlaid.Db NextPlaid.Condition NextPlaid.Spec

variable {S : Sql}

/-- What SQLite's evaluator offers. `int` makes a number; `compare col op x y` compares the value `x` of the column
`col` with the parameter `y` (unknown when one of them is NULL; the declared type of the column decides how `y` is
converted); `like x y` is `x LIKE y`; `text` is `ctx.get::<String>`. -/
structure Engine (S : Sql) where
  int : Int → S.V
  compare : List Char → Cmp → S.V → S.V → Option Bool
  like : S.V → S.V → Option Bool
  text : S.V → Option (List Char)

/-- The function registered under the name `regexp` on a connection, if any: the compiled pattern it captured. -/
abbrev Conn := Option (List Char → Bool)

/-- SQLite compares column names without regard to ASCII case. -/
def sameCol (a : String) (n : List Char) : Bool := a.toList.map Char.toLower == n.map Char.toLower

/-- `get_schema_columns`: /repo/next-plaid/src/filtering.rs:536-561. -/
def schemaColumns (t : Tables S) : List (List Char) :=
  ("_subset_" :: t.thinCols.map (·.1) ++ t.fatCols.map (·.1)).map String.toList

/-- `condition_references_fat_column`: /repo/next-plaid/src/filtering.rs:1926-1945. -/
def mentionsFat (U : Uni) (t : Tables S) (text : List Char) : Bool :=
  t.fatCols.any fun c => containsSub (U.upper c.1.toList) (U.upper text)

/-- What `FROM` offers: the column names, and the rows with their id. -/
structure Source (S : Sql) where
  cols : List String
  rows : List (Int × List (String × S.V))

/-- `FROM METADATA`: /repo/next-plaid/src/filtering.rs:1905-1908. -/
def thinSource (e : Engine S) (t : Tables S) : Source S where
  cols := "_subset_" :: "_content_id_" :: t.thinCols.map (·.1)
  rows := t.thin.map fun r => (r.subset, ("_subset_", e.int r.subset) :: ("_content_id_", e.int r.cid) ::
    (t.thinCols.map (·.1)).zip r.vals)

/-- `FROM METADATA M JOIN METADATA_CONTENT C`: /repo/next-plaid/src/filtering.rs:1900-1903. -/
def joinSource (e : Engine S) (t : Tables S) : Source S where
  cols := "_subset_" :: "_content_id_" :: t.thinCols.map (·.1) ++ "_content_id_" :: t.fatCols.map (·.1)
  rows := t.thin.flatMap fun r => (t.fat.filter fun f => f.cid == r.cid).map fun f =>
    (r.subset, ("_subset_", e.int r.subset) :: ("_content_id_", e.int r.cid) :: (t.thinCols.map (·.1)).zip r.vals ++
      ("_content_id_", e.int f.cid) :: (t.fatCols.map (·.1)).zip f.vals)

/-- A name stands for one column, or the statement is refused: no such column, or an ambiguous one. -/
def resolves (cols : List String) (n : List Char) : Bool := (cols.filter fun c => sameCol c n).length == 1

/-- The value of a column in a row. -/
def lookup (cells : List (String × S.V)) (n : List Char) : S.V :=
  ((cells.find? fun p => sameCol p.1 n).map (·.2)).getD S.null

/-! ### SQLite's evaluation of a condition -/

def sqlNot : Option Bool → Option Bool
  | none => none
  | some b => some !b

def sqlAnd : Option Bool → Option Bool → Option Bool
  | some true, y => y
  | some false, _ => some false
  | none, some false => some false
  | none, _ => none

def sqlOr : Option Bool → Option Bool → Option Bool
  | some false, y => y
  | some true, _ => some true
  | none, some true => some true
  | none, _ => none

/-- The next bound parameter. -/
def next : List S.V → Res (S.V × List S.V)
  | [] => .error .err
  | p :: ps => .ok (p, ps)

/-- The closure registered as `regexp`: /repo/next-plaid/src/filtering.rs:2020-2030. The pattern it is called with
must be text and is ignored; the text must be text. -/
def callRegexp (e : Engine S) (conn : Conn) (pattern x : S.V) : Res (Option Bool) :=
  match conn, e.text pattern, e.text x with
  | some hit, some _, some t => .ok (some (hit t))
  | _, _, _ => .error .err

/-- `x IN (?, ..)`: the values are compared one after the other. -/
def evalIn (e : Engine S) (col : List Char) (x : S.V) : Nat → List S.V → Res (Option Bool × List S.V)
  | 0, ps => .ok (some false, ps)
  | k + 1, ps => do
    let (p, ps) ← next ps
    let (r, ps) ← evalIn e col x k ps
    pure (sqlOr (e.compare col .eq x p) r, ps)

def flip (neg : Bool) (r : Option Bool) : Option Bool := bif neg then sqlNot r else r

/-- One test: its value and the parameters that remain. -/
def evalTest (e : Engine S) (conn : Conn) (cells : List (String × S.V)) (ps : List S.V) :
    Test → Res (Option Bool × List S.V)
  | .compare n op => do
    let (p, ps) ← next ps
    pure (e.compare n op (lookup cells n) p, ps)
  | .like neg n => do
    let (p, ps) ← next ps
    pure (flip neg (e.like (lookup cells n) p), ps)
  | .regexp neg n => do
    let (p, ps) ← next ps
    let r ← callRegexp e conn p (lookup cells n)
    pure (flip neg r, ps)
  | .isNull neg n => pure (flip neg (some (S.isNull (lookup cells n))), ps)
  | .between neg n => do
    let (p, ps) ← next ps
    let (q, ps) ← next ps
    pure (flip neg (sqlAnd (e.compare n .ge (lookup cells n) p) (e.compare n .le (lookup cells n) q)), ps)
  | .isIn neg n more => do
    let (r, ps) ← evalIn e n (lookup cells n) (more + 1) ps
    pure (flip neg r, ps)

def eval (e : Engine S) (conn : Conn) (cells : List (String × S.V)) : Cond → List S.V → Res (Option Bool × List S.V)
  | .test t, ps => evalTest e conn cells ps t
  | .neg c, ps => do
    let (x, ps) ← eval e conn cells c ps
    pure (sqlNot x, ps)
  | .conj a b, ps => do
    let (x, ps) ← eval e conn cells a ps
    let (y, ps) ← eval e conn cells b ps
    pure (sqlAnd x y, ps)
  | .disj a b, ps => do
    let (x, ps) ← eval e conn cells a ps
    let (y, ps) ← eval e conn cells b ps
    pure (sqlOr x y, ps)

/-- Whether the condition calls `regexp`. -/
def callsRegexp : Cond → Bool
  | .test (.regexp _ _) => true
  | .test _ => false
  | .neg c => callsRegexp c
  | .conj a b => callsRegexp a || callsRegexp b
  | .disj a b => callsRegexp a || callsRegexp b

/-- The number of placeholders. -/
def placeholders : Cond → Nat
  | .test (.isNull _ _) => 0
  | .test (.between _ _) => 2
  | .test (.isIn _ _ more) => more + 1
  | .test _ => 1
  | .neg c => placeholders c
  | .conj a b => placeholders a + placeholders b
  | .disj a b => placeholders a + placeholders b

/-- The loop over the rows: /repo/next-plaid/src/filtering.rs:1914-1919. -/
def selectRows (e : Engine S) (conn : Conn) (c : Cond) (ps : List S.V) : List (Int × List (String × S.V)) → Res (List Int)
  | [] => .ok []
  | r :: rs => do
    let (x, _) ← eval e conn r.2 c ps
    let l ← selectRows e conn c ps rs
    pure (bif x == some true then r.1 :: l else l)

/-- `prepare`, binding and the loop: /repo/next-plaid/src/filtering.rs:1910-1921. -/
def select (e : Engine S) (conn : Conn) (plan : List (Int × List (String × S.V)) → List (Int × List (String × S.V)))
    (src : Source S) (c : Cond) (ps : List S.V) : Res (List Int) :=
  if !(c.columns.all (resolves src.cols)) then .error .err
  else if callsRegexp c && conn.isNone then .error .err
  else if ps.length ≠ placeholders c then .error .err
  else selectRows e conn c ps (plan src.rows)

/-- The statement that both functions run: /repo/next-plaid/src/filtering.rs:1895-1921 and 2034-2057. -/
def query (U : Uni) (e : Engine S) (conn : Conn)
    (plan : List (Int × List (String × S.V)) → List (Int × List (String × S.V)))
    (t : Tables S) (text : List Char) (c : Cond) (ps : List S.V) : Res (List Int) :=
  select e conn plan (if mentionsFat U t text then joinSource e t else thinSource e t) c ps

/-- `where_condition`: /repo/next-plaid/src/filtering.rs:1880-1923. The connection is the cached one
(lines 670-690), with whatever is registered on it. -/
def whereCondition (U : Uni) (e : Engine S) (conn : Conn)
    (plan : List (Int × List (String × S.V)) → List (Int × List (String × S.V)))
    (db : Option (Tables S)) (text : List Char) (c : Cond) (ps : List S.V) : Res (List Int) :=
  match db with
  | none => .error .err
  | some t =>
    match validateCondition U (schemaColumns t) text with
    | .error f => .error f
    | .ok () => query U e conn plan t text c ps

/-- `where_condition_regexp`: /repo/next-plaid/src/filtering.rs:1969-2059, with the connection afterwards. `compile`
is `fancy_regex`; a match that gives up counts as none (line 2029). A parameter is a JSON string exactly when it is
bound as text (an array or an object is also bound as text; those are left out). -/
def whereConditionRegexp (U : Uni) (e : Engine S) (compile : List Char → Option (List Char → Bool)) (conn : Conn)
    (plan : List (Int × List (String × S.V)) → List (Int × List (String × S.V)))
    (db : Option (Tables S)) (text : List Char) (c : Cond) (ps : List S.V) : Conn × Res (List Int) :=
  match db with
  | none => (conn, .error .err)
  | some t =>
    match (ps.head?.bind e.text).bind compile with
    | none => (conn, .error .err)
    | some hit =>
      match validateCondition U (schemaColumns t) text with
      | .error f => (conn, .error f)
      | .ok () => (some hit, query U e (some hit) plan t text c ps)

/-- A call on the database of one index: the read connection is kept between calls, and dropped when
the database file is created anew (`invalidate_read_connection`, lines 693-700, called at 1093 and 1160). -/
inductive Call (S : Sql) where
  | plain (text : List Char) (c : Cond) (ps : List S.V)
  | regexp (text : List Char) (c : Cond) (ps : List S.V)
  | renew

def step (U : Uni) (e : Engine S) (compile : List Char → Option (List Char → Bool))
    (plan : List (Int × List (String × S.V)) → List (Int × List (String × S.V)))
    (db : Option (Tables S)) (conn : Conn) : Call S → Conn
  | .plain _ _ _ => conn
  | .regexp text c ps => (whereConditionRegexp U e compile conn plan db text c ps).1
  | .renew => none

end NextPlaid.Where
