import Verif.Model.Accepted
import Verif.Spec.Abort

/-!
Vocabulary of C85.
-/

namespace NextPlaid.Accepted

open NextPlaid.Abort

variable {V M : Type}

/-- The item a request brings, if it brings one. -/
def itemOf : Batch.Event (Mat V) M → Option (Batch.Item (Mat V) M)
  | .request i => some i
  | .sendReserved i => some i
  | _ => none

/-- The documents of an item beside their metadata. -/
def pairs (i : Batch.Item (Mat V) M) : List (Doc V × M) := (given i.embeddings).zip i.metadata

/-- All documents of the item are of width `w` and there is a token. -/
def WellFormed (w : Nat) (i : Batch.Item (Mat V) M) : Prop :=
  (∀ m ∈ i.embeddings, m.cols = w) ∧ Something i.embeddings

/-- The requests answered 202. -/
def accepted (s : Sys V M) : List (Batch.Item (Mat V) M) := (s.cur.getD {}).accepted

/-- A worker waits or has ended, its queue is empty and no request is about to send. -/
def Spent (q : Batch.State (Mat V) M) : Prop :=
  q.queue = [] ∧ q.reserved = 0 ∧ (q.worker = .idle ∨ q.worker = .stopped)

/-- What a search or a lookup can find: each document beside its metadata. -/
def stored (s : Sys V M) : List (Doc V × M) := s.srv.ix.docs.zip s.srv.rows

/-- The event is orderly: the index is removed only when its updates have been processed, the documents of requests are of
width `w`, and no request goes on sending to a queue after its index was removed. -/
def Fine (w : Nat) (s : Sys V M) : Event V M → Prop
  | .declare => True
  | .remove => Spent (s.cur.getD {})
  | .work e => ∀ i, itemOf e = some i → WellFormed w i
  | .drain _ e => asks e = false ∧ itemOf e = none

/-- The events are orderly, each when it happens. -/
def Orderly (max cap : Nat) (cfg : Cfg) (held : List Nat) (w : Nat) : Sys V M → List (Event V M) → Prop
  | _, [] => True
  | s, e :: es => Fine w s e ∧ ∀ s', step max cap cfg held s e = some s' → Orderly max cap cfg held w s' es

/-- Every request answered 202 since the server started, whatever index of this name it was meant for. -/
def everAccepted (s : Sys V M) : List (Batch.Item (Mat V) M) :=
  s.old.flatMap (·.accepted) ++ (s.cur.getD {}).accepted

end NextPlaid.Accepted
