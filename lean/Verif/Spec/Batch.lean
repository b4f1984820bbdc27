import Mathlib.Data.List.Basic

/-!
The words used by the statements about batching, over the requests accepted so far and the batches handed over so far.
-/

namespace NextPlaid.Spec

/-- `parts` cuts `whole` into consecutive nonempty pieces and leaves `rest` at the end. -/
def CutsInto {α : Type} (whole : List α) (parts : List (List α)) (rest : List α) : Prop :=
  parts.flatten ++ rest = whole ∧ ∀ p ∈ parts, p ≠ []

/-- A batch took no further request once it held `max` documents: without its last request it was smaller. -/
def StoppedInTime {α : Type} (size : α → Nat) (max : Nat) (batch : List α) : Prop :=
  ∀ before last, batch = before ++ [last] → before ≠ [] → (before.map size).sum < max

end NextPlaid.Spec
