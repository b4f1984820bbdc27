import Verif.Model.Device

/-!
What the user asks for by environment variables, C98.
-/

namespace NextPlaid.Spec

open NextPlaid.Device

/-- A variable is switched on: it is `1`, or `true` in whatever case. -/
def On (e : Env) (name : String) : Prop := ∃ v, e name = some v ∧ (v = "1" ∨ v.toList.map Char.toLower = ['t', 'r', 'u', 'e'])

def AsksCpu (e : Env) : Prop := On e "FORCE_CPU" ∨ On e "COLGREP_FORCE_CPU" ∨ On e "NEXT_PLAID_FORCE_CPU"

def AsksGpu (e : Env) : Prop := On e "FORCE_GPU" ∨ On e "COLGREP_FORCE_GPU" ∨ On e "NEXT_PLAID_FORCE_GPU"

/-- A GPU can be seen by CUDA. -/
def Visible (e : Env) : Prop := e "CUDA_VISIBLE_DEVICES" ≠ some "" ∧ e "CUDA_VISIBLE_DEVICES" ≠ some "-1"

end NextPlaid.Spec
