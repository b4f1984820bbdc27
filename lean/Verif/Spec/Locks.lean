import Verif.Model.Locks

/-! Specification of mutual exclusion: which jobs are changing a directory in a state. -/

namespace NextPlaid.Spec
open NextPlaid NextPlaid.Locks

/-- The job is at a point where it changes files of its index: `delete_index` removes the directory after it has released
its lock, the others work while they hold theirs, or without one. -/
def changing (job : Job) (p : Phase) : Bool :=
  match p, job.kind with
  | .working _, .remove => false
  | .working _, _ => true
  | .released, _ => true
  | .unlocked, _ => true
  | _, _ => false

/-- Job number `i` of the state is changing the directory of `job`. -/
def Changing (s : State) (i : Nat) (job : Job) : Prop := ∃ p, s.jobs[i]? = some (job, p) ∧ changing job p = true

/-- An index name without special meaning for the file system: not empty, without separator, not "." or "..". -/
def plainName (name : List Char) : Prop := name ≠ [] ∧ '/' ∉ name ∧ name ≠ ['.'] ∧ name ≠ ['.', '.']

end NextPlaid.Spec
