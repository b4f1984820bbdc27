import Verif.Model.Atomic

/-!
Specification vocabulary for atomic file replacement.
-/

namespace NextPlaid.Spec
open NextPlaid.Atomic

/-- The inode an entry change makes visible. -/
def opInode : DirOp → Option Nat
  | .add _ i => some i
  | .del _ => none
  | .move _ _ i => some i

/-- A consistent file system: the visible directory is the durable one with the pending changes applied, and no
inode number is `next` or above.  Any file system reached from a freshly mounted one is consistent
(`mounted_wf`, `wf_after`). -/
structure WF (s : Fs) : Prop where
  dir_eq : s.dir = s.pend.foldl DirOp.apply s.base
  base_lt : ∀ n i, s.base n = some i → i < s.next
  pend_lt : ∀ op ∈ s.pend, ∀ i, opInode op = some i → i < s.next

/-- A freshly mounted file system: everything is durable. -/
def mounted (d : Disk) (next : Nat) : Fs :=
  { dir := d.dir, data := d.data, dirty := fun _ => false, base := d.dir, pend := [], next := next }

/-- One completed call of `atomic_write_file`. -/
def after (s : Fs) (w : Env × Name) : Fs := execs s (atomicWrite s w.1 w.2).1

/-- A number of completed calls, one after the other. -/
def afterAll (s : Fs) (ws : List (Env × Name)) : Fs := ws.foldl after s

end NextPlaid.Spec
