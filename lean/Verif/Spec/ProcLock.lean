import Verif.Model.ProcLock

/-!
What the lock of an index is for.
-/

namespace NextPlaid.Spec

open NextPlaid.ProcLock

/-- The process writes to the index. -/
def Works (s : St) (p : Nat) : Prop := ∃ i, s.proc p = .holding .index i ∨ s.proc p = .holding .tryIndex i

/-- The process has locked the file `i`. -/
def HasLock (s : St) (p i : Nat) : Prop := (∃ job, s.proc p = .holding job i) ∨ s.proc p = .removed i

/-- The process has opened the lock file and wants the lock. -/
def Wants (s : St) (p : Nat) (job : Job) : Prop := ∃ i t, s.proc p = .trying job i t

/-- The step removes the index directory. -/
def removes (s : St) : Op → Bool
  | .proceed p =>
    match s.proc p with
    | .holding .rebuild _ => true
    | .removing => true
    | _ => false
  | _ => false

/-- How many times the directory is removed. -/
def removals (s : St) : List Op → Nat
  | [] => 0
  | o :: l => (if removes s o then 1 else 0) + removals (step s o).1 l

/-- How much time passes. -/
def lasts : List Op → Nat
  | [] => 0
  | .pass ms :: l => ms + lasts l
  | _ :: l => lasts l

end NextPlaid.Spec
