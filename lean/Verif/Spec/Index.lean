import Verif.Model.Index

/-!
Specification of the index properties, independent of how the index is stored.

An index *means* a plain list of documents; a document is a list of token embeddings.
-/

namespace NextPlaid.Spec
open NextPlaid NextPlaid.Index

/-- Deletion on a plain list: drop the elements whose position is among `ids`. -/
def deleteIds {α : Type} (ids : List Int) (docs : List α) : List α :=
  (docs.zipIdx.filter fun p => decide ((p.2 : Int) ∉ ids)).map (·.1)

/-- The operations of a history, each performed on a freshly opened index:
`MmapIndex::update_or_create` and `delete_from_index`. -/
inductive Op (E : Env) where
  | update (docs : List (List E.Row)) (cfg : Cfg)
  | delete (ids : List Int)

/-- What an operation returns: the ids given to the added documents, or the number of deleted ones. -/
inductive Out where
  | ids (l : List Int)
  | count (n : Nat)
deriving DecidableEq, Repr

/-- An operation on a plain list of documents. -/
def Op.onList {E : Env} (docs : List (List E.Row)) : Op E → List (List E.Row) × Out
  | .update new _ => (docs ++ new, .ids ((List.range new.length).map fun i => ((docs.length + i : Nat) : Int)))
  | .delete ids => (deleteIds ids docs, .count (docs.length - (deleteIds ids docs).length))

/-- A history on a plain list. -/
def listRun {E : Env} (docs : List (List E.Row)) : List (Op E) → List (List E.Row) × List Out
  | [] => (docs, [])
  | op :: ops =>
    let (docs', o) := op.onList docs
    let (docs'', os) := listRun docs' ops
    (docs'', o :: os)

/-- An operation on an index directory. -/
def Op.onDisk {E : Env} (d : Disk E) : Op E → Res (Disk E × Out)
  | .update new cfg => do
    let r ← updateOrCreate d new cfg
    .ok (r.1, .ids r.2)
  | .delete ids => do
    let r ← deleteFromIndex d ids
    .ok (r.1, .count r.2)

/-- A history on an index directory; it stops at the first error. -/
def diskRun {E : Env} (d : Disk E) : List (Op E) → Res (Disk E × List Out)
  | [] => .ok (d, [])
  | op :: ops => do
    let r ← op.onDisk d
    let r' ← diskRun r.1 ops
    .ok (r'.1, r.2 :: r'.2)

/-- Operations covered by the history theorems: batches are not empty, the chunk size is positive, ids
to delete are not negative. -/
def Op.Ordinary {E : Env} : Op E → Prop
  | .update docs cfg => docs ≠ [] ∧ 0 < cfg.batchSize
  | .delete ids => ∀ x ∈ ids, 0 ≤ x

/-- What a caller sees of a loaded index: it holds exactly the documents `docs`, in order, each token
compressed against the quantiser of the index and a non-empty initial part of its centroids (those
that existed when the document was last encoded). -/
def Holds {E : Env} (x : Loaded E) (docs : List (List E.Row)) : Prop :=
  x.numDocuments = docs.length ∧
  (∀ (i : Nat) (doc : List E.Row), docs[i]? = some doc →
    ∃ k, 0 < k ∧ k ≤ x.centroids.length ∧
      x.docTokens i = .ok (doc.map (E.encode (x.centroids.take k) x.quant))) ∧
  (∀ i, docs.length ≤ i → x.docTokens i = .error .err)

/-- Like `Holds`, every document compressed against the centroids of the index. -/
def HoldsExactly {E : Env} (x : Loaded E) (docs : List (List E.Row)) : Prop :=
  x.numDocuments = docs.length ∧
  (∀ (i : Nat) (doc : List E.Row), docs[i]? = some doc →
    x.docTokens i = .ok (doc.map (E.encode x.centroids x.quant))) ∧
  (∀ i, docs.length ≤ i → x.docTokens i = .error .err)

/-- Directories produced by index creation (on any earlier directory contents), `update_append` and
`delete_from_index`, together with the list the same operations produce. -/
inductive Built {E : Env} : Disk E → List (List E.Row) → Prop
  | create {cfg docs ws} (d0 : Disk E) : 0 < cfg.batchSize → createWithKmeans cfg docs = .ok ws →
      Built (applyAll d0 ws) docs
  | append {d raw docs cfg d' ids} : Built d raw → docs ≠ [] → 0 < cfg.batchSize →
      updateAppend d docs cfg = .ok (d', ids) → Built d' (raw ++ docs)
  | delete {d raw ids d' n} : Built d raw → (∀ x ∈ ids, 0 ≤ x) →
      deleteFromIndex d ids = .ok (d', n) → Built d' (deleteIds ids raw)

/-- The inverted file is exact: the list stored for centroid `c` is strictly increasing and contains
exactly the documents that have a token with code `c`. -/
def IvfExact {E : Env} (x : Loaded E) : Prop :=
  x.ivfLengths.length = x.centroids.length ∧
  ∀ c, c < x.centroids.length → ∃ s len l, x.ivfOffsets[c]? = some s ∧ x.ivfLengths[c]? = some len ∧
    slice x.ivf s (s + len) = .ok l ∧ l.Pairwise (· < ·) ∧
    ∀ p : Int, p ∈ l ↔ ∃ i : Nat, p = i ∧ ∃ toks, x.docTokens i = .ok toks ∧ ∃ t ∈ toks, t.1 = c

/-- The saved raw embeddings `rows`/`lens` are exactly the documents `docs`, or absent when there are
none. -/
def RawFile {β : Type} (rows : Option (List β)) (lens : Option (List Nat)) (docs : List (List β)) : Prop :=
  if docs = [] then rows = none ∧ lens = none
  else rows = some docs.flatten ∧ lens = some (docs.map List.length)

/-- The saved raw embeddings belong to the index: the rebuild file holds the documents of an initial
segment, the pending buffer those of a final segment, and the two do not overlap. -/
def RawInStep {E : Env} (d : Disk E) (docs : List (List E.Row)) : Prop :=
  ∃ emb mid buf, docs = emb ++ mid ++ buf ∧ RawFile d.embNpy d.embLens emb ∧
    RawFile d.buffer d.bufferLens buf ∧ d.bufferInfo = if buf = [] then none else some buf.length

/-- Directories in which search is performed: built by create, append and delete, or by a history of
`update_or_create` and `delete` calls starting from nothing; `raw` is the same history on a list. -/
inductive Stored {E : Env} : Disk E → List (List E.Row) → Prop
  | built {d raw} : Built d raw → Stored d raw
  | history {ops d os} : ops ≠ [] → (∀ op ∈ ops, Op.Ordinary op) → diskRun ({} : Disk E) ops = .ok (d, os) →
      Stored d (listRun [] ops).1

end NextPlaid.Spec
