import Verif.Model.Db
import Verif.Spec.Index

/-!
Specification of the metadata store: it means a plain list of JSON rows; row `i` has id `i`.
-/

namespace NextPlaid.Spec
open NextPlaid NextPlaid.Db

variable {S : Sql}

/-- What a caller sees: listing everything returns one row per element of `rows`, in order; row `i`
has id `i`, and each column reads back the value given for it (NULL when none was given), converted
according to the type the column was declared with. -/
def Shows (db : Option (Tables S)) (rows : List (Item S)) : Prop :=
  ∃ (ty : String → S.Ty) (out : List (OutRow S)),
    (∀ order, get order db none none = .ok out) ∧ out.length = rows.length ∧
    ∀ (i : Nat) (it : Item S), rows[i]? = some it → ∃ r, out[i]? = some r ∧ r.subset = (i : Int) ∧
      ∀ col, r.value col = S.cell (ty col) (it.value col)

/-- The ids `start, start + 1, ..` given to a batch. -/
def idsFrom (start n : Nat) : List Int := (List.range n).map fun i => ((start + i : Nat) : Int)

/-- A row with some of its columns replaced. -/
def overwrite (upd : List (String × S.V)) (it : Item S) : Item S :=
  some (upd ++ (it.getD []).filter fun p => !(upd.any fun u => u.1 == p.1))

/-- Metadata stores produced by the metadata API when ids are given out densely, together with the
list of rows the same calls produce on a plain list. -/
inductive Kept : Option (Tables S) → List (Item S) → Prop
  | create {items db n} : create items (idsFrom 0 items.length) = .ok (db, n) → Kept db items
  | update {db rows items db' n} : Kept db rows →
      update db items (idsFrom rows.length items.length) = .ok (db', n) → Kept db' (rows ++ items)
  | delete {db rows} (ids : List Int) : Kept db rows → Kept (delete db ids).1 (deleteIds ids rows)
  | change {db rows all valid sat upd db' n} : Kept db rows → get id db none none = .ok all →
      updateWhere db valid sat upd = .ok (db', n) →
      Kept db' (List.zipWith (fun r it => if sat r && !upd.isEmpty then overwrite upd it else it) all rows)

end NextPlaid.Spec
