import Verif.Model.Abort

/-!
Vocabulary of C84: what an index directory looks like when nothing has gone wrong in it, and what may be given to it.
-/

namespace NextPlaid.Abort

variable {V M : Type}

/-- A pair of files (rows, lengths) holds the documents `ds` of width `w`; without documents the files are absent. -/
def Holds (w : Nat) (rows : Option (Nat × List (List V))) (lens : Option (List Nat)) (ds : List (Doc V)) : Prop :=
  (rows = none ∧ lens = none ∧ ds = []) ∨ (ds ≠ [] ∧ rows = some (w, ds.flatten) ∧ lens = some (ds.map List.length))

/-- The directory is in order: the documents are those kept for a rebuild, then others, then those of the buffer, whose
number is noted. -/
def Fit (s : Ix V) : Prop :=
  ∃ raw mid buf, s.docs = raw ++ mid ++ buf ∧ Holds s.dim s.rawRows s.rawLens raw ∧
    Holds s.dim s.bufRows s.bufLens buf ∧ s.bufInfo.getD 0 = buf.length

/-- The documents have one width, and it is that of the index if that has documents. -/
def Suits (s : Ix V) (new : List (Mat V)) : Prop :=
  ∃ w, (∀ m ∈ new, m.cols = w) ∧ (s.docs ≠ [] → w = s.dim)

/-- There is a document, and a token. -/
def Something (new : List (Mat V)) : Prop := ∃ m ∈ new, m.rows ≠ []

/-- A width that can neither be copied into an index of width `w` nor be repeated over it. -/
def Foreign (w : Nat) (m : Mat V) : Prop := m.cols ≠ w ∧ m.cols ≠ 1

/-- The rows of the documents given. -/
def given (new : List (Mat V)) : List (Doc V) := new.map Mat.rows

/-- The number of documents in the buffer. -/
def buffered (s : Ix V) : Nat := (s.bufLens.getD []).length

/-- The buffer holds `k` documents, which are not of the width of the index and not in it. -/
def Poisoned (k : Nat) (s : Ix V) : Prop :=
  ∃ (w : Nat) (buf : List (Doc V)), w ≠ s.dim ∧ w ≠ 1 ∧ s.dim ≠ 1 ∧ 0 < k ∧ buf.length = k ∧ s.bufRows = some (w, buf.flatten) ∧
    s.bufLens = some (buf.map List.length) ∧ s.bufInfo = some k ∧ s.rawRows = none ∧ s.thr = true

/-- One update call. -/
structure Call (V : Type) where
  new : List (Mat V)
  cfg : Cfg
  held : List Nat

/-- Several calls, one after the other, whether or not they fail. -/
def calls (s : Ix V) : List (Call V) → Ix V
  | [] => s
  | c :: cs => calls (update s c.new c.cfg c.held).1 cs

/-- An operation of a client that does nothing wrong: an update or a deletion. -/
inductive Op (V : Type) where
  | update (c : Call V)
  | delete (ids : List Int)

/-- The operations on a plain list of documents; deleting takes out the positions named. -/
def listed (l : List (Doc V)) : List (Op V) → List (Doc V)
  | [] => l
  | .update c :: ops => listed (l ++ given c.new) ops
  | .delete ids :: ops => listed ((l.zipIdx.filter fun p => decide ((p.2 : Int) ∉ ids)).map Prod.fst) ops

/-- The operations on the directory, and whether every update ended well. -/
def performed (s : Ix V) : List (Op V) → Ix V × Bool
  | [] => (s, true)
  | .update c :: ops =>
    let u := update s c.new c.cfg c.held
    let r := performed u.1 ops
    (r.1, u.2 && r.2)
  | .delete ids :: ops => performed (delete s ids) ops

/-- Every document given is of width `w`, and every update has a token. -/
def AllOf (w : Nat) (ops : List (Op V)) : Prop :=
  ∀ c, Op.update c ∈ ops → Something c.new ∧ ∀ m ∈ c.new, m.cols = w

end NextPlaid.Abort
