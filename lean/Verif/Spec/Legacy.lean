import Verif.Model.Legacy
import Verif.Spec.Db

/-!
Specification for metadata databases of any version: like a new one, an old one means a plain list of
JSON rows.
-/

namespace NextPlaid.Spec
open NextPlaid NextPlaid.Db

variable {S : Sql}

/-- Stored values are left as they are when they are stored again in a column of the same type. -/
def Settled (S : Sql) : Prop := ∀ ty v, S.cell ty (S.cell ty v) = S.cell ty v

/-- A database left behind by an earlier version: row `i` holds the values of document `i`, and every
key of a document has its column. -/
def Inherited (t : Flat S) (rows : List (Item S)) : Prop :=
  t.rows.length = rows.length ∧
  (∀ (i : Nat) (it : Item S), rows[i]? = some it →
    t.rows[i]? = some ⟨i, 0, t.cols.map fun c => S.cell c.2 (it.value c.1)⟩) ∧
  ∀ it ∈ rows, ∀ obj, it = some obj → ∀ p ∈ obj, p.1 ∈ t.cols.map (·.1)

/-- What a caller sees, as `Shows`, for a database of any version. -/
def ListsAs (db : Option (AnyDb S)) (rows : List (Item S)) : Prop :=
  ∃ (ty : String → S.Ty) (out : List (OutRow S)),
    (∀ order, AnyDb.get order db none none = .ok out) ∧ out.length = rows.length ∧
    ∀ (i : Nat) (it : Item S), rows[i]? = some it → ∃ r, out[i]? = some r ∧ r.subset = (i : Int) ∧
      ∀ col, r.value col = S.cell (ty col) (it.value col)

/-- Databases reached by the calls of this version from one that an earlier version left, or from
nothing, together with the list of rows the same calls produce on a plain list.  Creating replaces
whatever was there by a new database. -/
inductive Carried : Option (AnyDb S) → List (Item S) → Prop
  | old {t rows} : Inherited t rows → Carried (some (.flat t)) rows
  | create {items db n} : create items (idsFrom 0 items.length) = .ok (db, n) →
      Carried (db.map .split) items
  | update {db rows items db' n} : Carried db rows →
      AnyDb.update db items (idsFrom rows.length items.length) = .ok (db', n) → Carried db' (rows ++ items)
  | delete {db rows} (ids : List Int) : Carried db rows → Carried (AnyDb.delete db ids).1 (deleteIds ids rows)
  | change {db rows all valid sat upd db' n} : Carried db rows → AnyDb.get id db none none = .ok all →
      AnyDb.updateWhere db valid sat upd = .ok (db', n) →
      Carried db' (List.zipWith (fun r it => if sat r && !upd.isEmpty then overwrite upd it else it) all rows)

end NextPlaid.Spec
