import Verif.Model.EncodePool
import Verif.Spec.Encode

/-! What is assumed of the models of a pool. -/

namespace NextPlaid.EncodePool

open NextPlaid.Spec

variable {T E : Type}

/-- The embeddings a model gives are those of the texts. -/
def SoundModel (c : Setup T E) (Enc : Input → Option Nat → T → E → Prop) : Prop :=
  ∀ w k f ts es, c.encode w k f ts = .ok es → OneEach (Enc k f) ts es

/-- The pool factor that counts: queries are not pooled. -/
def factorOf (item : Item T) : Option Nat := match item.input with
  | .query => none
  | .document => item.factor

/-- Some call of the model panics. -/
def Panics (c : Setup T E) (w : Nat) : Prop := ∃ k f ts, c.encode w k f ts = .error .panic

end NextPlaid.EncodePool
