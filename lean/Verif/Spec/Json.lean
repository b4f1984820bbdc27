import Verif.Model.Json
import Verif.Spec.Db

/-!
Specification for metadata values and for the acceptance of metadata rows.
-/

namespace NextPlaid.Spec
open NextPlaid NextPlaid.Db NextPlaid.Json

variable {R : Type}

/-- Which values a column of a type gives back as they were given. -/
def Faithful (F : Floats R) (ty : Json.Ty) : Json R → Prop
  | .null => True
  | .bool _ => False
  | .tree _ => False
  | .int i => i < 2 ^ 63 ∧ (ty = .integer ∨ ty = .blob)
  | .real r => F.finite r = true ∧ (ty = .real ∨ ty = .blob ∨ ty = .integer ∧ F.asInt r = none)
  | .str s => ty = .text ∨ ty = .blob ∨ F.parse s = none

/-- The value is NULL, or a number or text of the given kind. -/
def OfKind (F : Floats R) (k : Json.Ty) : Json R → Prop
  | .null => True
  | .int i => k = .integer ∧ i < 2 ^ 63
  | .real r => k = .real ∧ F.finite r = true
  | .str _ => k = .text
  | _ => False

/-- Every column that appears in the batch and is not among `known` has a value that is not NULL, or is a text column. -/
def Introduces (F : Floats R) (k : String → Json.Ty) (known : List String) (items : List (Item (sql F))) : Prop :=
  ∀ it ∈ items, ∀ p ∈ it.getD [], p.1 ∉ known → k p.1 = .text ∨ ∃ it' ∈ items, it'.value p.1 ≠ .null

/-- The columns of a store. -/
def columns {S : Sql} : Option (Tables S) → List String
  | none => []
  | some t => t.thinCols.map (·.1) ++ t.fatCols.map (·.1)

/-- Histories in which all values of a column are of one kind `k column`, a batch that introduces a column has a value for
it, and the first row of the first batch has no explicit NULL (except in text columns). -/
inductive TypedKept (F : Floats R) (k : String → Json.Ty) : Option (Tables (sql F)) → List (Item (sql F)) → Prop
  | create {items db n} : (∀ it ∈ items, ∀ p ∈ it.getD [], OfKind F (k p.1) p.2) → Introduces F k [] items →
      (∀ first ∈ items.head?, ∀ p ∈ first.getD [], k p.1 = .text ∨ p.2 ≠ .null) →
      create items (idsFrom 0 items.length) = .ok (db, n) → TypedKept F k db items
  | update {db rows items db' n} : TypedKept F k db rows → (∀ it ∈ items, ∀ p ∈ it.getD [], OfKind F (k p.1) p.2) →
      Introduces F k (columns db) items →
      update db items (idsFrom rows.length items.length) = .ok (db', n) → TypedKept F k db' (rows ++ items)
  | delete {db rows} (ids : List Int) : TypedKept F k db rows → TypedKept F k (delete db ids).1 (deleteIds ids rows)
  | change {db rows all valid sat upd db' n} : TypedKept F k db rows → (∀ u ∈ upd, OfKind F (k u.1) u.2) →
      get id db none none = .ok all → updateWhere db valid sat upd = .ok (db', n) →
      TypedKept F k db' (List.zipWith (fun r it => if sat r && !upd.isEmpty then overwrite upd it else it) all rows)

/-- An ASCII identifier. -/
def Identifier (name : String) : Prop :=
  ∃ c cs, name.toList = c :: cs ∧ (c.isAlpha ∨ c = '_') ∧ ∀ d ∈ cs, d.isAlphanum ∨ d = '_'

/-- The same name up to the case of ASCII letters. -/
def SameName (a b : String) : Prop := a.toList.map Char.toLower = b.toList.map Char.toLower

/-- Names that can all be columns beside the two reserved ones. -/
def GoodNames (names : List String) : Prop :=
  (∀ n ∈ names, ¬ SameName n "_subset_" ∧ ¬ SameName n "_content_id_") ∧
  ∀ a ∈ names, ∀ b ∈ names, SameName a b → a = b

end NextPlaid.Spec
