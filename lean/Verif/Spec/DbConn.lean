import Verif.Model.DbConn

/-!
Specification for reads of metadata databases: one database per path, and every read gives what is there.
-/

namespace NextPlaid.Spec
open NextPlaid.DbConn (World Op)

variable {P D : Type} [DecidableEq P]

/-- What is at the paths, whether the database there has been read by this process, and the paths of the reads under way. -/
structure Ideal (P D : Type) where
  disk : P → Option D
  seen : P → Bool
  reading : Nat → Option P

/-- One step. -/
def Ideal.next (s : Ideal P D) : Op P D → Ideal P D
  | .start r p => if (s.disk p).isNone then s else
      { s with seen := fun x => if x = p then true else s.seen x, reading := fun x => if x = r then some p else s.reading x }
  | .finish r => { s with reading := fun x => if x = r then none else s.reading x }
  | .write p f => { s with disk := fun x => if x = p then (s.disk p).map f else s.disk x }
  | .create p d => { s with disk := fun x => if x = p then d else s.disk x, seen := fun x => if x = p then false else s.seen x }
  | .remove p => { s with disk := fun x => if x = p then none else s.disk x }
  | .rename p q => if (s.disk p).isSome ∧ s.disk q = none then
      { s with disk := fun x => if x = p then none else if x = q then s.disk p else s.disk x } else s

/-- What a step reads: what is there. -/
def Ideal.reads (s : Ideal P D) : Op P D → List (P × Option D)
  | .start _ p => if (s.disk p).isNone then [(p, none)] else []
  | .finish r => match s.reading r with
    | none => []
    | some p => [(p, s.disk p)]
  | _ => []

/-- A history. -/
def Ideal.after (s : Ideal P D) (l : List (Op P D)) : Ideal P D := l.foldl Ideal.next s

/-- All that a history reads. -/
def Ideal.answers (s : Ideal P D) : List (Op P D) → List (P × Option D)
  | [] => []
  | o :: l => s.reads o ++ (s.next o).answers l

/-- A step that is safe: a database is created while no read of it is under way, and the directory of a database that the
process has read since it was created is neither removed nor renamed. -/
def Quiet (s : Ideal P D) : Op P D → Prop
  | .start r _ => s.reading r = none
  | .finish _ => True
  | .write _ _ => True
  | .create p _ => ∀ r, s.reading r ≠ some p
  | .remove p => s.seen p = false
  | .rename p q => s.seen p = false ∧ s.seen q = false

/-- Every step is safe. -/
def AllQuiet (s : Ideal P D) : List (Op P D) → Prop
  | [] => True
  | o :: l => Quiet s o ∧ AllQuiet (s.next o) l

/-- A process that has just started: no connections, no reads.  Different paths are different files. -/
structure Started (w : World P D) : Prop where
  conn : ∀ p, w.conn p = none
  held : ∀ r, w.held r = none
  files : ∀ p q i, w.node p = some i → w.node q = some i → p = q
  fresh : ∀ p i, w.node p = some i → i < w.next

/-- What a process that has just started finds. -/
def found (w : World P D) : Ideal P D := ⟨fun p => (w.node p).map w.data, fun _ => false, fun _ => none⟩

/-- A step that leaves the file of `p` where it is (but may write to it and read it). -/
def Stays (p : P) : Op P D → Prop
  | .create q _ => q ≠ p
  | .remove q => q ≠ p
  | .rename q r => q ≠ p ∧ r ≠ p
  | _ => True

end NextPlaid.Spec
