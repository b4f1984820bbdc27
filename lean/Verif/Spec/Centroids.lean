import Verif.Model.Centroids

/-! Specification of training with a GPU that may fail. -/

namespace NextPlaid.Spec
open NextPlaid NextPlaid.Centroids

variable {V C : Type}

/-- What the CPU answers to a call. -/
def cpuAnswer (cpu : List (List V) → Config → Res C) : Call V C → Option (Res C)
  | .centroids rows k cfg _ _ => some (cpu rows (cfg.getD ⟨k, 4, 42, some 256⟩))
  | .train rows cfg _ _ => some (cpu rows cfg)
  | .context _ => none
  | .clear => none

/-- The GPU does not give a result for the call. -/
def gpuTrouble : Call V C → Prop
  | .centroids _ _ _ _ g => ∀ c, g ≠ .gives c
  | .train _ _ _ g => ∀ c, g ≠ .gives c
  | .context g => g ≠ .gives ()
  | .clear => False

/-- The call asks for the CPU. -/
def asksCpu : Call V C → Prop
  | .centroids _ _ _ force _ => force = true
  | .train _ _ force _ => force = true
  | _ => False

/-- Guarded calls that end in the opposite order of their beginnings: `(t, true)` begins a call of thread `t`. -/
inductive Nested : List (Nat × Bool) → Prop
  | nil : Nested []
  | wrap (t : Nat) {l} : Nested l → Nested ((t, true) :: l ++ [(t, false)])
  | append {l m} : Nested l → Nested m → Nested (l ++ m)

end NextPlaid.Spec
