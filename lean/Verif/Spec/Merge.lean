import Verif.Model.Merge

/-!
Specification of merged files.
-/

namespace NextPlaid.Spec
open NextPlaid.Merge

/-- All rows of the first `n` chunks, in chunk order. -/
def allRows (chunks : Nat → Option ChunkFile) (n : Nat) : List (List Nat) :=
  (List.range n).flatMap fun i => match chunks i with | none => [] | some f => f.rows

/-- Every chunk file has rows of the same width (`c` columns). -/
def SameWidth (k : Kind) (chunks : Nat → Option ChunkFile) (c : Nat) : Prop :=
  ∀ i f, chunks i = some f → f.cols = c ∧ ∀ r ∈ f.rows, r.length = k.width c

/-- A chunk file with the modification time and the row count of an earlier version of the same chunk has
the same rows: `content` gives the rows for each chunk number, time and count. -/
def Stamped (content : Nat → Int → Nat → List (List Nat)) (chunks : Nat → Option ChunkFile) : Prop :=
  ∀ i f, chunks i = some f → content i f.mtime f.rows.length = f.rows

/-- Histories of one index directory: chunk files are edited in any way, `metadata.json` gets any time, merged
files are cleared or lost, merges happen with any parameters.  The second argument is the contents of the
chunk files at the last merge that looked at them. -/
inductive History (k : Kind) (content : Nat → Int → Nat → List (List Nat)) :
    Dir → (Nat → Option ChunkFile) → Prop
  | start (d : Dir) (h1 : d.merged = none) (h2 : d.manifest = none) (h3 : Stamped content d.chunks) :
      History k content d d.chunks
  | edit {d s} (chunks : Nat → Option ChunkFile) (t : Int) (h : History k content d s) (hs : Stamped content chunks) :
      History k content { d with chunks := chunks, metaMtime := t } s
  | clear {d s} (h : History k content d s) : History k content (clear d) s
  | lose {d s} (h : History k content d s) : History k content { d with merged := none } s
  | merge {d s d'} (n p : Nat) (h : History k content d s) (hm : merge k d n p = .ok d') :
      History k content d' (if fastOk k d n p then s else d.chunks)

/-- Histories as the library makes them: whenever chunk files have been changed, the merged files are cleared
before the next merge (/repo/next-plaid/src/update.rs:1117, /repo/next-plaid/src/delete.rs:263). -/
inductive LibHistory (k : Kind) : Dir → Prop
  | start (d : Dir) (h1 : d.merged = none) (h2 : d.manifest = none) : LibHistory k d
  | change {d} (chunks : Nat → Option ChunkFile) (t : Int) (h : LibHistory k d) :
      LibHistory k (clear { d with chunks := chunks, metaMtime := t })
  | merge {d d'} (n p : Nat) (h : LibHistory k d) (hm : merge k d n p = .ok d') : LibHistory k d'

end NextPlaid.Spec
