import Verif.Model.ConfCache

/-!
What C83 says of requests that overlap.
-/

namespace NextPlaid.Spec.ConfCache

open NextPlaid.ConfCache
open NextPlaid.Catalogue (Cfg File)

/-- Nothing is under way. -/
def Quiet (s : St) : Prop := ∀ t, ∃ a, s.pc t = .idle a

/-- The same configuration, but for the limit on documents. -/
def Same (c c' : Cfg) : Prop := c' = { c with maxDocuments := c'.maxDocuments }

/-- `t` is between looking in the file and keeping what it found, without the lock. -/
def Looking (s : St) (t : Nat) : Prop := s.pc t = .get1 ∨ ∃ c, s.pc t = .get2 c

/-- `t` has let go of the lock and is about to remove the directory. -/
def Removing (s : St) (t : Nat) : Prop := s.pc t = .delete2

/-- Nobody looks in the file, without the lock, while another changes the configuration, and nobody
does either while a directory is being removed. -/
def Calm (s : St) : Prop :=
  (∀ t, Looking s t → s.lock = none) ∧ (∀ t, Removing s t → s.lock = none ∧ ∀ u, ¬ Looking s u)

/-- Every state on the way is calm. -/
def CalmAll (s : St) (as : List Act) : Prop := ∀ k, Calm (exec s (as.take k))

end NextPlaid.Spec.ConfCache
