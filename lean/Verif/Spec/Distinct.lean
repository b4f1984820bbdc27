import Verif.Model.Distinct
import Verif.Spec.Db

/-! Specification of the enumeration of the distinct values of a metadata column. -/

namespace NextPlaid.Spec
open NextPlaid NextPlaid.Db

variable {S : Sql}

/-- What SQLite guarantees about values: NULL is NULL, an integer is neither NULL nor text, and
`DISTINCT` identifies two texts exactly when they are the same string and never a text with a
value that is not one. -/
structure TextsLawful (Q : Texts S) : Prop where
  null : S.isNull S.null = true
  int_null : ∀ i, S.isNull (Q.int i) = false
  int_text : ∀ i, Q.str (Q.int i) = none
  same_refl : ∀ v, Q.same v v = true
  same_text : ∀ v w s, Q.str v = some s → (Q.same v w = true ↔ Q.str w = some s)
  same_other : ∀ v w, Q.str v = none → Q.same v w = true → Q.str w = none

/-- Some row of a listing has the text `s` in the column. -/
def ColumnHas (Q : Texts S) (all : List (OutRow S)) (col s : String) : Prop :=
  ∃ r ∈ all, S.isNull (r.value col) = false ∧ Q.str (r.value col) = some s

/-- Some row of a listing has a value in the column that is neither NULL nor text. -/
def ColumnOther (Q : Texts S) (all : List (OutRow S)) (col : String) : Prop :=
  ∃ r ∈ all, S.isNull (r.value col) = false ∧ Q.str (r.value col) = none

end NextPlaid.Spec
