import Verif.Spec.Encode

/-! What a caller knows of a stream of embeddings (property C87). -/

namespace NextPlaid.Spec

/-- In how many chunks `docs` documents come, at most `batch` at a time. -/
def chunks (batch docs : Nat) : Nat := (docs + max batch 1 - 1) / max batch 1

/-- A chunk that was given: its number, the place of its first document, and one embedding for each of its documents. -/
abbrev Given (E : Type) := Nat × Nat × List E

/-- What was given is right as far as it goes: every embedding belongs to the document at its place, and no chunk came twice. -/
def RightSoFar {T E : Type} (Enc : T → E → Prop) (texts : List T) (given : List (Given E)) : Prop :=
  (∀ c ∈ given, ∀ (j : Nat) (x : E), c.2.2[j]? = some x → ∃ t, texts[c.2.1 + j]? = some t ∧ Enc t x) ∧
  (given.map fun c => c.1).Nodup

/-- All documents were given, each once and at its place. -/
def AllGiven {T E : Type} (Enc : T → E → Prop) (texts : List T) (given : List (Given E)) : Prop :=
  CoversOnce Enc texts (given.map fun c => ⟨c.2.1, c.2.2⟩)

/-- The chunks among the messages; the others are failures. -/
def oks {F E : Type} (messages : List (Except F (Given E))) : List (Given E) :=
  messages.filterMap fun m => match m with | .ok c => some c | .error _ => none

end NextPlaid.Spec
