import Verif.Spec.Encode

/-! What a user of an indexing run relies on. -/

namespace NextPlaid.Spec

/-- The index and the database have grown by these units, in step: one document for each unit, in this order, each with an embedding of its
unit, and under the id of each new document the row of its unit. -/
def GrownInStep {U E : Type} (Emb : U → E → Prop) (units : List U) (docs : List E) (rows : List (Nat × U)) (docs' : List E) (rows' : List (Nat × U)) :
    Prop :=
  ∃ new, docs' = docs ++ new ∧ OneEach Emb units new ∧ rows' = rows ++ (List.range' docs.length units.length).zip units

end NextPlaid.Spec
