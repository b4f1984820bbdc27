import Verif.Model.MetaApi
import Verif.Spec.Db

/-! Specification of the metadata endpoints. -/

namespace NextPlaid.Spec
open NextPlaid NextPlaid.Db NextPlaid.SearchApi NextPlaid.MetaApi

variable {S : Sql}

/-- A disk that nobody changes during the request: an index with the metadata rows `rows`. -/
def Resting (d : Nat → Disk S) (t : Tables S) (rows : List (Item S)) : Prop :=
  Kept (some t) rows ∧ ∀ i, d i = ⟨true, some t⟩

/-- Row number `id` exists. -/
def HasRow (rows : List (Item S)) (id : Int) : Prop := 0 ≤ id ∧ id < (rows.length : Int)

/-- The listing of the rows: what the listing endpoint gives. -/
def Listing (d : Nat → Disk S) (all : List (OutRow S)) : Prop := ∀ rowOrder, getAll rowOrder d = .ok all

end NextPlaid.Spec
