import Verif.Model.Index

/-!
Updates that fail and updates that are interrupted: /repo/next-plaid/src/index.rs:1431-1591 (`MmapIndex::update`),
1644-1665 (`update_or_create`), 927-971 (`create_index_with_kmeans_files`), /repo/next-plaid/src/update.rs:132-396 (buffer
and raw embeddings), 621-751 (`update_centroids`), 760-1130 (`update_index`), /repo/next-plaid/src/delete.rs:66-398, and
/repo/next-plaid-api/src/handlers/documents.rs:109-192 (repair), 400-560 (`process_batch`), 1118-1181 (`add_documents`).

`Verif.Model.Index` shows a failing update as changing nothing and takes all rows to be of one width.  Here an update is
the list of its writes, each of which may fail or be the last, and every matrix carries its width.  In exchange the index
itself is shown only as the list of its documents: compression, chunks and the inverted file are those of
`Verif.Model.Index`, and the creation of all files of an index, the removal of documents from it, and the writing of one
chunk with its counts are one step each (the batch size is at least the number of documents of a call, 50 000 unless set
otherwise).  The documents sampled for k-means are all of them, as they are up to 30 720 documents.
-/

namespace NextPlaid.Abort

variable {V M : Type}

/-- `Array2<f32>`: a width and the rows. -/
structure Mat (V : Type) where
  cols : Nat
  rows : List (List V)
deriving DecidableEq, Repr

/-- The tokens of one document. -/
abbrev Doc (V : Type) := List (List V)

/-- `target.slice_mut(s![offset..offset + n, ..]).assign(doc)` of ndarray, with a target of width `w`: rows of the same
width are copied, rows of width one are repeated (broadcast) over the whole width, every other width panics:
/repo/next-plaid/src/update.rs:199, 339, 651-653, 846-848; /repo/next-plaid/src/kmeans.rs:297-299;
/repo/next-plaid/src/index.rs:730-736. -/
def place (w : Nat) (m : Mat V) : Option (Doc V) :=
  if m.cols = w then some m.rows
  else if m.cols = 1 then some (m.rows.map fun r => r.flatMap fun x => List.replicate w x)
  else none

/-- The loop over the documents. -/
def placeAll (w : Nat) : List (Mat V) → Option (List (Doc V))
  | [] => some []
  | m :: ms =>
    match place w m with
    | none => none
    | some d => (placeAll w ms).map (d :: ·)

/-- The number of tokens of a list of documents. -/
def tokens (ms : List (Mat V)) : Nat := (ms.map fun m => m.rows.length).sum

/-- An index directory: width (`metadata.json`, `centroids.npy`), documents, `embeddings.npy`, `embeddings_lengths.json`,
`buffer.npy`, `buffer_lengths.json`, `buffer_info.json`, and whether `cluster_threshold.npy` can be read.  A directory
without an index is the one without documents. -/
structure Ix (V : Type) where
  dim : Nat
  docs : List (Doc V)
  rawRows : Option (Nat × List (List V))
  rawLens : Option (List Nat)
  bufRows : Option (Nat × List (List V))
  bufLens : Option (List Nat)
  bufInfo : Option Nat
  thr : Bool
deriving DecidableEq, Repr

/-- A directory in which nothing has been indexed. -/
def Ix.empty : Ix V := ⟨0, [], none, none, none, none, none, false⟩

/-- `load_buffer`, `load_embeddings_npy`: /repo/next-plaid/src/update.rs:132-171, 265-301. -/
def loadMats (rows : Option (Nat × List (List V))) (lens : Option (List Nat)) : List (Mat V) :=
  match rows with
  | none => []
  | some (w, rs) =>
    match lens with
    | some ls => (Index.splitRows ls rs).map fun d => ⟨w, d⟩
    | none => [⟨w, rs⟩]

/-- The writes of an update. -/
inductive Step (V : Type) where
  | remake (ms : List (Mat V)) (held : List Nat)
  | rawRows (ms : List (Mat V))
  | rawLens (ms : List (Mat V))
  | noRawRows
  | noRawLens
  | bufRows (ms : List (Mat V))
  | bufLens (ms : List (Mat V))
  | bufInfo (ms : List (Mat V))
  | noBufRows
  | noBufLens
  | noBufInfo
  | drop (k : Nat)
  | centroids (ms : List (Mat V))
  | add (ms : List (Mat V))
deriving DecidableEq, Repr

/-- `create_index_with_kmeans_files` up to the last file of the index: index.rs:932-962.  The width is that of the first
document; k-means places every document (kmeans.rs:291-301) and needs a token (kmeans.rs:314-316); the held-out sample is
built from the rows as they are (index.rs:585-606), so that one of another width is an error: `held` are the documents
it has rows of. -/
def remake (s : Ix V) (held : List Nat) : List (Mat V) → Option (Ix V)
  | [] => none
  | m :: ms =>
    match placeAll m.cols (m :: ms) with
    | none => none
    | some ds =>
      if tokens (m :: ms) = 0 then none
      else if held.any (fun i => ((m :: ms)[i]?).any fun x => decide (x.cols ≠ m.cols)) then none
      else some { s with dim := m.cols, docs := ds, thr := true }

/-- The array `save_buffer` and `save_embeddings_npy` write: the width is that of the first document,
/repo/next-plaid/src/update.rs:187-202, 326-342. -/
def stack : List (Mat V) → Option (Nat × List (List V))
  | [] => none
  | m :: ms => (placeAll m.cols (m :: ms)).map fun ds => (m.cols, ds.flatten)

/-- One write; `none` when it fails, which stops the update. -/
def act (s : Ix V) : Step V → Option (Ix V)
  | .remake ms held => remake s held ms
  | .rawRows ms => (stack ms).map fun a => { s with rawRows := some a }
  | .rawLens ms => some { s with rawLens := some (ms.map fun m => m.rows.length) }
  | .noRawRows => some { s with rawRows := none }
  | .noRawLens => some { s with rawLens := none }
  | .bufRows ms => (stack ms).map fun a => { s with bufRows := some a }
  | .bufLens ms => some { s with bufLens := some (ms.map fun m => m.rows.length) }
  | .bufInfo ms => some { s with bufInfo := some ms.length }
  | .noBufRows => some { s with bufRows := none }
  | .noBufLens => some { s with bufLens := none }
  | .noBufInfo => some { s with bufInfo := none }
  | .drop k => some { s with docs := s.docs.take (s.docs.length - k) }
  | .centroids ms =>
    -- without a threshold there is no expansion, without tokens nothing is copied (update.rs:640-642)
    if s.thr && decide (tokens ms ≠ 0) then (placeAll s.dim ms).map fun _ => s else some s
  | .add ms => (placeAll s.dim ms).map fun ds => { s with docs := s.docs ++ ds }

/-- The part of `UpdateConfig` that decides between the branches. -/
structure Cfg where
  scratch : Nat
  bufferSize : Nat
deriving DecidableEq, Repr

/-- Is the index rebuilt from scratch: index.rs:1462-1469. -/
def fromScratch (s : Ix V) (cfg : Cfg) : Bool :=
  decide (s.docs.length ≤ cfg.scratch) && decide ((loadMats s.rawRows s.rawLens).length = s.docs.length)

/-- Is the buffer full: index.rs:1501-1514. -/
def expands (s : Ix V) (n : Nat) (cfg : Cfg) : Bool :=
  decide (cfg.bufferSize ≤ n + (loadMats s.bufRows s.bufLens).length)

/-- From-scratch branch: index.rs:1470-1496 and 964-968; `clear_embeddings_npy` removes what is there. -/
def planScratch (ms : List (Mat V)) (cfg : Cfg) (held : List Nat) : List (Step V) :=
  .remake ms held ::
    (if ms.length ≤ cfg.scratch then [.rawRows ms, .rawLens ms] else [.noRawRows, .noRawLens])

/-- Removal of the buffered documents: index.rs:1517-1533. -/
def planDrop (s : Ix V) : List (Step V) :=
  if 0 < s.bufInfo.getD 0 ∧ s.bufInfo.getD 0 ≤ s.docs.length then [.drop (s.bufInfo.getD 0)] else []

/-- Centroid-expansion branch: index.rs:1515-1562. -/
def planExpand (s : Ix V) (ms : List (Mat V)) : List (Step V) :=
  planDrop s ++ [.centroids ms, .noBufRows, .noBufLens, .noBufInfo, .add ms]

/-- Small-update branch: index.rs:1563-1584. -/
def planSmall (ms new : List (Mat V)) : List (Step V) :=
  [.bufRows ms, .bufLens ms, .bufInfo ms, .add new]

/-- The writes of `MmapIndex::update` of at least one document: index.rs:1431-1591. -/
def plan (s : Ix V) (new : List (Mat V)) (cfg : Cfg) (held : List Nat) : List (Step V) :=
  if fromScratch s cfg then planScratch (loadMats s.rawRows s.rawLens ++ new) cfg held
  else if expands s new.length cfg then planExpand s (loadMats s.bufRows s.bufLens ++ new)
  else planSmall (loadMats s.bufRows s.bufLens ++ new) new

/-- The writes are made one after the other until one fails. -/
def run (s : Ix V) : List (Step V) → Ix V × Bool
  | [] => (s, true)
  | a :: as =>
    match act s a with
    | none => (s, false)
    | some s' => run s' as

/-- An update: the directory it leaves and whether it ended without error or panic. -/
def update (s : Ix V) (new : List (Mat V)) (cfg : Cfg) (held : List Nat) : Ix V × Bool :=
  run s (plan s new cfg held)

/-- An update of a process that is stopped after `n` writes. -/
def stopped (s : Ix V) (new : List (Mat V)) (cfg : Cfg) (held : List Nat) (n : Nat) : Ix V :=
  (run s ((plan s new cfg held).take n)).1

/-- The id of the first new document: index.rs:1472, 1536, 1567. -/
def firstId (s : Ix V) (new : List (Mat V)) (cfg : Cfg) : Nat :=
  if fromScratch s cfg then (loadMats s.rawRows s.rawLens).length
  else if expands s new.length cfg then
    (if planDrop s = [] then s.docs.length else s.docs.length - s.bufInfo.getD 0)
      + (loadMats s.bufRows s.bufLens).length
  else s.docs.length

/-- The documents that stay when `ids` are deleted. -/
def keepDocs (ids : List Int) : Int → List (Doc V) → List (Doc V)
  | _, [] => []
  | i, d :: ds => if i ∈ ids then keepDocs ids (i + 1) ds else d :: keepDocs ids (i + 1) ds

/-- `clean_embeddings_files` for one pair of files: /repo/next-plaid/src/delete.rs:295-396. -/
def cleanPair (ids : List Int) (first : Int) (rows : Option (Nat × List (List V))) (lens : Option (List Nat)) :
    Option (Nat × List (List V)) × Option (List Nat) :=
  match rows, lens with
  | some (w, rs), some ls =>
    let r := Index.cleanRows ids first ls rs
    if r.2 = [] then (none, none) else (some (w, r.1), some r.2)
  | _, _ => (rows, lens)

/-- `delete_from_index`: /repo/next-plaid/src/delete.rs:43-45, 66-398. -/
def delete (s : Ix V) (ids : List Int) : Ix V :=
  let raw := cleanPair ids 0 s.rawRows s.rawLens
  let buf := cleanPair ids ((s.docs.length : Int) - ((s.bufLens.getD []).length : Int)) s.bufRows s.bufLens
  { s with
    docs := keepDocs ids 0 s.docs
    rawRows := raw.1, rawLens := raw.2
    bufRows := buf.1, bufLens := buf.2
    bufInfo := if s.bufRows.isSome && s.bufLens.isSome then buf.2.map List.length else s.bufInfo }

/-! ### The server -/

/-- An index directory with its metadata rows. -/
structure Srv (V M : Type) where
  ix : Ix V
  rows : List M
deriving DecidableEq, Repr

/-- `repair_index_db_sync`: documents.rs:109-192. -/
def repair (s : Srv V M) : Srv V M :=
  if s.ix.docs.length < s.rows.length then { s with rows := s.rows.take s.ix.docs.length }
  else if s.rows.length < s.ix.docs.length then
    { s with ix := delete s.ix (Index.idRange s.rows.length (s.ix.docs.length - s.rows.length)) }
  else s

/-- `process_batch` without eviction and with metadata the database takes: documents.rs:400-560.  A panic or an error of
the update ends it. -/
def batch (s : Srv V M) (new : List (Mat V)) (items : List M) (cfg : Cfg) (held : List Nat) : Srv V M × Bool :=
  let r := repair s
  let u := update r.ix new cfg held
  if u.2 then (⟨u.1, r.rows ++ items⟩, true) else (⟨u.1, r.rows⟩, false)

/-- A batch of a server that is stopped after `n` writes of the update of the index. -/
def batchStopped (s : Srv V M) (new : List (Mat V)) (cfg : Cfg) (held : List Nat) (n : Nat) : Srv V M :=
  let r := repair s
  ⟨stopped r.ix new cfg held n, r.rows⟩

/-- The widths `add_documents` lets through, given the width of the index: documents.rs:1142-1181. -/
def widthsChecked (expected : Nat) (new : List (Mat V)) : Bool := new.all fun m => decide (m.cols = expected)

end NextPlaid.Abort
