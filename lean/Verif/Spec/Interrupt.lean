import Verif.Model.Interrupt

/-!
What Ctrl+C should do, C97.
-/

namespace NextPlaid.Spec

open NextPlaid.Interrupt

variable {α : Type}

/-- Some thread is inside a write to the index. -/
def Writing (s : State α) : Prop := ∃ c ∈ s.cells, c.phase = .writing

/-- All threads have returned. -/
def AllEnded (s : State α) : Prop := ∀ c ∈ s.cells, c.isEnded = true

end NextPlaid.Spec
