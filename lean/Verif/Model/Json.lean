import Verif.Model.Db

/-!
Model of the values in the metadata store: JSON values, SQLite values, column types and type affinity;
`infer_sql_type`, `json_to_sql` and `row_to_json_value` of /repo/next-plaid/src/filtering.rs.

Text is a list of characters.  An array or object is represented by its serialised text.  Floating point numbers and
SQLite's reading and printing of numbers are parameters.
-/

namespace NextPlaid.Json
open NextPlaid.Db

/-- `serde_json::Value`; `int` is a number that is an `i64` or a `u64`, `real` any other number. -/
inductive Json (R : Type) where
  | null
  | bool (b : Bool)
  | int (i : Int)
  | real (r : R)
  | str (s : List Char)
  | tree (text : List Char)
  deriving DecidableEq

/-- The declared column types. -/
inductive Ty where
  | integer | real | text | blob
  deriving DecidableEq

/-- A stored SQLite value (no binary values are ever stored in these tables). -/
inductive Cell (R : Type) where
  | null
  | int (i : Int)
  | real (r : R)
  | text (s : List Char)
  deriving DecidableEq

/-- The arithmetic of `f64` and SQLite's conversions: the nearest number of an integer; the integer that equals a number,
when SQLite stores it as one; the printed form of a number and of an integer; the number a text denotes, if it denotes one. -/
structure Floats (R : Type) where
  ofInt : Int → R
  asInt : R → Option Int
  finite : R → Bool
  showReal : R → List Char
  showInt : Int → List Char
  parse : List Char → Option (Int ⊕ R)

/-- What is used of them: a number stored as an integer is within the range of `i64`. -/
structure Floats.Lawful {R : Type} (F : Floats R) : Prop where
  asInt_range : ∀ r i, F.asInt r = some i → -2 ^ 63 ≤ i ∧ i < 2 ^ 63

variable {R : Type} (F : Floats R)

/-- `infer_sql_type`: /repo/next-plaid/src/filtering.rs:616-631. -/
def infer : Json R → Ty
  | .int _ => .integer
  | .real _ => .real
  | .bool _ => .integer
  | .str _ => .text
  | .null => .text
  | .tree _ => .blob

/-- `json_to_sql`: /repo/next-plaid/src/filtering.rs:634-650. -/
def toSql : Json R → Cell R
  | .null => .null
  | .bool b => .int (if b then 1 else 0)
  | .int i => if i < 2 ^ 63 then .int i else .real (F.ofInt i)
  | .real r => .real r
  | .str s => .text s
  | .tree t => .text t

/-- A number under INTEGER affinity: stored as an integer when it equals one. -/
def intAffinity (r : R) : Cell R :=
  match F.asInt r with
  | some i => .int i
  | none => .real r

/-- SQLite's type affinity (sqlite.org/datatype3.html, section 3): what a column of the type keeps of a value. -/
def store : Ty → Cell R → Cell R
  | .integer, .real r => intAffinity F r
  | .integer, .text s =>
    match F.parse s with
    | some (.inl i) => .int i
    | some (.inr r) => intAffinity F r
    | none => .text s
  | .real, .int i => .real (F.ofInt i)
  | .real, .text s =>
    match F.parse s with
    | some (.inl i) => .real (F.ofInt i)
    | some (.inr r) => .real r
    | none => .text s
  | .text, .int i => .text (F.showInt i)
  | .text, .real r => .text (F.showReal r)
  | _, c => c

/-- `row_to_json_value`: /repo/next-plaid/src/filtering.rs:2375-2396.  `i64`, `f64` and `String` are tried in this order;
`Number::from_f64` refuses infinities. -/
def read : Cell R → Json R
  | .int i => .int i
  | .real r => if F.finite r then .real r else .null
  | .text s => .str s
  | .null => .null

/-- The metadata store over JSON values. -/
@[reducible] def sql (F : Floats R) : Sql where
  V := Json R
  null := .null
  isNull := fun v => match v with
    | .null => true
    | _ => false
  Ty := Ty
  text := .text
  infer := infer
  cell := fun ty v => read F (store F ty (toSql F v))

theorem sql_lawful : (sql F).Lawful where
  cell_null := by intro ty; cases ty <;> rfl

end NextPlaid.Json
