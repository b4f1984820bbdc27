import Verif.Model.Runtime

/-!
Words for what the set-up of ONNX Runtime has to do.
-/

namespace NextPlaid.Spec

open NextPlaid.Ort

variable {B : Type}

/-- `dir` is one of the directories of a search path. -/
def LdEntry (dir ld : Text) : Prop :=
  ∃ pre post, ld = pre ++ dir ++ post ∧ (pre = [] ∨ ∃ p, pre = p ++ [':']) ∧ (post = [] ∨ ∃ q, post = ':' :: q)

/-- There is a file at `p`, and it can be loaded. -/
def Loadable (h : Host B) (w : World B) (p : Path) : Prop := ∃ c, w.files p = some c ∧ h.loads c = true

/-- The last entry of an archive under a name, with or without `./`, has contents `c`. -/
def LastIn (entries : List (String × B)) (src : String) (c : B) : Prop :=
  ∃ pre name post, entries = pre ++ (name, c) :: post ∧ stripDot name = src ∧ ∀ e ∈ post, stripDot e.1 ≠ src

end NextPlaid.Spec
