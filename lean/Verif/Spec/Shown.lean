import Verif.Model.Shown
import Verif.Spec.Db
import Verif.Spec.JsonText

/-!
Vocabulary of C86.
-/

namespace NextPlaid.Shown
open NextPlaid NextPlaid.Db NextPlaid.Json NextPlaid.JsonText NextPlaid.Spec

variable {R : Type}

/-- The text begins with a bracket and is, as a whole, an array in JSON. -/
def ArrayText (F : Reals R) (s : Text) : Prop := (∃ t, s = '[' :: t) ∧ ∃ l, parse F s = some (.arr l)

/-- The texts of a unit that are shown or used as texts. -/
def texts (u : CodeUnit) : List Text :=
  [u.name, u.qualifiedName, u.file, u.signature, u.code] ++ u.docstring.toList ++ u.returnType.toList ++ u.extends_.toList ++
    u.parentClass.toList

/-- None of them is an array in JSON. -/
def Plain (F : Reals R) (u : CodeUnit) : Prop := ∀ s ∈ texts u, ¬ ArrayText F s

/-- Line numbers and the complexity fit 63 bits. -/
def Small (u : CodeUnit) : Prop := u.line < 2 ^ 63 ∧ u.endLine < 2 ^ 63 ∧ u.complexity < 2 ^ 63

/-- Metadata made by colgrep: units are stored under consecutive ids, first into a new database, then behind the others, and
are deleted by id; beside it the list of units that the same steps make of a plain list. -/
inductive Stored (F : Reals R) (G : Floats R) : Option (Tables (sql G)) → List CodeUnit → Prop
  | create {us db n} : (∀ u ∈ us, Small u) → Db.create (us.map (row F G)) (idsFrom 0 us.length) = .ok (db, n) → Stored F G db us
  | update {db us new db' n} : Stored F G db us → (∀ u ∈ new, Small u) →
      Db.update db (new.map (row F G)) (idsFrom us.length new.length) = .ok (db', n) → Stored F G db' (us ++ new)
  | delete {db us} (ids : List Int) : Stored F G db us → Stored F G (Db.delete db ids).1 (deleteIds ids us)

open Classical in
/-- What a search shows for document `id`. -/
noncomputable def shownFor (F : Reals R) (us : List CodeUnit) (id : Int) : Option CodeUnit :=
  if id < 0 then none else us[id.toNat]?.filter fun u => Plain F u

end NextPlaid.Shown
