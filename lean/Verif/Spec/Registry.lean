import Verif.Model.Registry

/-!
What the queues and semaphores of the server must be.
-/

namespace NextPlaid.Spec
open NextPlaid.Registry

/-- The setting in an environment: a number when the variable is one, else the default. -/
def SettingIs (env : Env) (name : String) (default n : Nat) : Prop :=
  match env name with
  | none => n = default
  | some v => match Npy.parseUsize v.toList with
    | some m => n = m
    | none => n = default

/-- The settings make sense: a channel has room for one element at least, and neither is beyond what tokio takes. -/
def SensibleEnv (env : Env) : Prop :=
  (∀ n, SettingIs env "BATCH_CHANNEL_SIZE" 100 n → 0 < n ∧ n < 2 ^ 61) ∧ (∀ n, SettingIs env "MAX_QUEUED_TASKS_PER_INDEX" 10 n → n < 2 ^ 61)

/-- Each request gets something, and two get the same exactly when they are of the same kind and for the same index. -/
def OneForEach (rs : List Request) (answers : List (Option Nat)) : Prop :=
  answers.length = rs.length ∧ (∀ a ∈ answers, a ≠ none) ∧
  ∀ (i j : Nat) (ri rj : Request) (a b : Option Nat), rs[i]? = some ri → rs[j]? = some rj → answers[i]? = some a → answers[j]? = some b →
    (a = b ↔ ri.kind = rj.kind ∧ ri.key = rj.key)

end NextPlaid.Spec
