import Verif.Model.Basic

/-!
Model of the on-disk index: creation, append, delete, centroid expansion, buffered update and load.

/repo/next-plaid/src/index.rs, /repo/next-plaid/src/update.rs, /repo/next-plaid/src/delete.rs.

A directory is a record with one field per file.  Each operation is modelled as the ordered list of
file writes it performs (`Write`), computed from the directory contents it reads.  Numerical parts
(k-means, nearest centroid, quantiles) are parameters collected in `Env`; they may be any functions
subject to `Env.Lawful`.  `num_embeddings`, ids and lengths are unbounded integers.
-/

namespace NextPlaid.Index

/-- The numerical parameters of the model.
* `Row`: one token embedding; `Cent`: one centroid; `Quant`: the cutoffs, weights and average
  residual; `Thr`: the cluster threshold; `Pk`: one packed residual row.
* `encode cs q r`: code and packed residual of a token (`compress_into_codes`, residual,
  `quantize_residuals`; the codec itself is modelled in `Verif.Model.Codec`).
* `kmeans seed docs`: `compute_kmeans`, /repo/next-plaid/src/kmeans.rs:261-422.
* `trainQuant`, `trainThr`: /repo/next-plaid/src/index.rs:568-666.
* `expand seed cs thr docs`: the new centroids of `update_centroids`
  (/repo/next-plaid/src/update.rs:637-699), empty when there are no outliers.
* `blendThr`: `update_cluster_threshold`, /repo/next-plaid/src/update.rs:385-416.
The `seed` stands for all configuration values that influence only these numerical parts. -/
structure Env where
  Row : Type
  Cent : Type
  Quant : Type
  Thr : Type
  Pk : Type
  encode : List Cent → Quant → Row → Nat × Pk
  kmeans : Nat → List (List Row) → Res (List Cent)
  trainQuant : Nat → List Cent → List (List Row) → Quant
  trainThr : Nat → List Cent → List (List Row) → Thr
  expand : Nat → List Cent → Thr → List (List Row) → Res (List Cent)
  blendThr : Option Thr → List (List Row) → Nat → Thr
  zeroPk : Pk

/-- What is assumed of the numerical parts: a code is in range when there is a centroid (proved for
the code's arg-max in `C04_codes_are_argmax`), and k-means never succeeds with zero centroids
(/repo/next-plaid/src/kmeans.rs:313-317). -/
structure Env.Lawful (E : Env) : Prop where
  code_lt : ∀ cs q r, cs ≠ [] → (E.encode cs q r).1 < cs.length
  kmeans_ne : ∀ s ds cs, E.kmeans s ds = .ok cs → cs ≠ []

/-- `ChunkMetadata`: /repo/next-plaid/src/index.rs:160-166. -/
structure ChunkMeta where
  numDocs : Nat
  numEmbs : Nat
  embOffset : Nat
deriving DecidableEq, Repr

/-- `Metadata`: /repo/next-plaid/src/index.rs:105-127.  `nbits`, `avg_doclen`, `embedding_dim` and
`next_plaid_compatible` are dropped: no operation modelled here branches on them. -/
structure Meta where
  numChunks : Nat
  numPartitions : Nat
  numEmbs : Nat
  numDocs : Nat
deriving DecidableEq, Repr

variable (E : Env)

/-- The files of an index directory.  `quant` stands for `bucket_cutoffs.npy`, `bucket_weights.npy`
and `avg_residual.npy`.  The merged files are a cache of the chunk files and are modelled separately
(`Verif.Model.Merge`). -/
structure Disk where
  metadata : Option Meta := none
  centroids : Option (List E.Cent) := none
  quant : Option E.Quant := none
  threshold : Option E.Thr := none
  chunkMeta : Nat → Option ChunkMeta := fun _ => none
  doclens : Nat → Option (List Nat) := fun _ => none
  codes : Nat → Option (List Nat) := fun _ => none
  residuals : Nat → Option (List E.Pk) := fun _ => none
  ivf : Option (List Int) := none
  ivfLengths : Option (List Nat) := none
  buffer : Option (List E.Row) := none
  bufferLens : Option (List Nat) := none
  bufferInfo : Option Nat := none
  embNpy : Option (List E.Row) := none
  embLens : Option (List Nat) := none

/-- One file effect. -/
inductive Write where
  | metadata (m : Meta)
  | centroids (cs : List E.Cent)
  | quant (q : E.Quant)
  | threshold (t : E.Thr)
  | chunkMeta (i : Nat) (m : ChunkMeta)
  | doclens (i : Nat) (l : List Nat)
  | codes (i : Nat) (l : List Nat)
  | residuals (i : Nat) (l : List E.Pk)
  | ivf (l : List Int)
  | ivfLengths (l : List Nat)
  | buffer (b : Option (List E.Row))
  | bufferLens (b : Option (List Nat))
  | bufferInfo (b : Option Nat)
  | embNpy (b : Option (List E.Row))
  | embLens (b : Option (List Nat))

variable {E}

/-- Functional update of a numbered file. -/
def upd {β : Type} (f : Nat → Option β) (i : Nat) (v : β) : Nat → Option β :=
  fun j => if j = i then some v else f j

/-- Effect of one write. -/
def apply (d : Disk E) : Write E → Disk E
  | .metadata m => { d with metadata := some m }
  | .centroids cs => { d with centroids := some cs }
  | .quant q => { d with quant := some q }
  | .threshold t => { d with threshold := some t }
  | .chunkMeta i m => { d with chunkMeta := upd d.chunkMeta i m }
  | .doclens i l => { d with doclens := upd d.doclens i l }
  | .codes i l => { d with codes := upd d.codes i l }
  | .residuals i l => { d with residuals := upd d.residuals i l }
  | .ivf l => { d with ivf := some l }
  | .ivfLengths l => { d with ivfLengths := some l }
  | .buffer b => { d with buffer := b }
  | .bufferLens b => { d with bufferLens := b }
  | .bufferInfo b => { d with bufferInfo := b }
  | .embNpy b => { d with embNpy := b }
  | .embLens b => { d with embLens := b }

/-- Effect of a list of writes. -/
def applyAll (d : Disk E) (ws : List (Write E)) : Disk E := ws.foldl apply d

/-- Opening a file that must exist: `File::open(..)?`. -/
def need {β : Type} : Option β → Res β
  | some b => .ok b
  | none => .error .err

/-! ### Shared helpers -/

/-- `Vec::dedup`: removes consecutive repetitions. -/
def dedupAdj : List Int → List Int
  | [] => []
  | [a] => [a]
  | a :: b :: l => if a = b then dedupAdj (b :: l) else a :: dedupAdj (b :: l)

/-- One step of the sort below. -/
def insertSorted (a : Int) : List Int → List Int
  | [] => [a]
  | b :: l => if a ≤ b then a :: b :: l else b :: insertSorted a l

/-- `sort_unstable` on integers.  Modelled by insertion sort: a sorted permutation of a list of
integers is unique, so the algorithm used by the standard library does not matter. -/
def sortInts : List Int → List Int
  | [] => []
  | a :: l => insertSorted a (sortInts l)

/-- `sort_unstable(); dedup()`, e.g. /repo/next-plaid/src/index.rs:868-869. -/
def sortDedup (l : List Int) : List Int := dedupAdj (sortInts l)

/-- `(n as f64 / batch_size as f64).ceil() as usize`, exact below 2^53:
/repo/next-plaid/src/index.rs:702 and /repo/next-plaid/src/update.rs:831. -/
def numChunksFor (n b : Nat) : Nat := (n + b - 1) / b

/-- `&embeddings[start..end]` for chunk `i`: /repo/next-plaid/src/index.rs:719-721. -/
def chunkSlice {β : Type} (docs : List β) (b i : Nat) : List β := (docs.drop (i * b)).take b

/-- `Metadata::load_from_path`: /repo/next-plaid/src/index.rs:131-155. -/
def loadMeta (d : Disk E) : Res Meta := do
  let m ← need d.metadata
  if m.numDocs = 0 then
    .ok { m with numDocs :=
      ((List.range m.numChunks).map fun i => ((d.doclens i).getD []).length).sum }
  else .ok m

/-! ### Creation -/

/-- The walk that assigns codes to documents while building the IVF:
/repo/next-plaid/src/index.rs:850-859.  `all_codes[emb_idx]` panics when the codes run out.
The result lists `(code, doc_id)` in the order of the pushes. -/
def ivfPairs : (docId : Int) → (lens codes : List Nat) → Res (List (Nat × Int))
  | _, [], _ => .ok []
  | docId, len :: lens, codes =>
    if codes.length < len then .error .panic
    else do
      let rest ← ivfPairs (docId + 1) lens (codes.drop len)
      .ok ((codes.take len).map (fun c => (c, docId)) ++ rest)

/-- The documents pushed under one centroid, in push order. -/
def pidsOf (pairs : List (Nat × Int)) (c : Nat) : List Int :=
  (pairs.filter fun p => p.1 = c).map (·.2)

/-- The writes of one chunk during creation: /repo/next-plaid/src/index.rs:718-826. -/
def createChunk (cs : List E.Cent) (q : E.Quant) (docs : List (List E.Row)) (b i : Nat) :
    List (Write E) :=
  let chunkDocs := chunkSlice docs b i
  let batch := chunkDocs.flatten.map (E.encode cs q)
  [ .chunkMeta i ⟨chunkDocs.length, batch.length, 0⟩,
    .doclens i (chunkDocs.map List.length),
    .codes i (batch.map (·.1)),
    .residuals i (batch.map (·.2)) ]

/-- The second pass that fills in `embedding_offset`: /repo/next-plaid/src/index.rs:828-847. -/
def createOffsets (docs : List (List E.Row)) (b : Nat) : (is : List Nat) → (off : Nat) → List (Write E)
  | [], _ => []
  | i :: is, off =>
    let chunkDocs := chunkSlice docs b i
    .chunkMeta i ⟨chunkDocs.length, chunkDocs.flatten.length, off⟩ ::
      createOffsets docs b is (off + chunkDocs.flatten.length)

/-- `create_index_files`: /repo/next-plaid/src/index.rs:551-911.  The same writes are produced by
`write_index_from_encoded_chunks` (/repo/next-plaid/src/index.rs:373-528).  `plan.json` is dropped
(never read).  A zero batch size, for which the chunk count overflows, is a fault. -/
def createIndexFiles (seed b : Nat) (docs : List (List E.Row)) (cs : List E.Cent) :
    Res (List (Write E)) :=
  if docs = [] then .error .err
  else if b = 0 then .error .panic
  else do
    let q := E.trainQuant seed cs docs
    let n := numChunksFor docs.length b
    let allCodes := ((List.range n).map fun i =>
      (chunkSlice docs b i).flatten.map fun r => (E.encode cs q r).1).flatten
    let docLengths := ((List.range n).map fun i => (chunkSlice docs b i).map List.length).flatten
    let pairs ← ivfPairs 0 docLengths allCodes
    let lists := (List.range cs.length).map fun c => sortDedup (pidsOf pairs c)
    .ok ([ .centroids cs, .quant q, .threshold (E.trainThr seed cs docs) ] ++
      ((List.range n).map (createChunk cs q docs b)).flatten ++
      createOffsets docs b (List.range n) 0 ++
      [ .ivf lists.flatten, .ivfLengths (lists.map List.length),
        .metadata ⟨n, cs.length, docs.flatten.length, docs.length⟩ ])

/-- Configuration values that matter to the control flow. -/
structure Cfg where
  batchSize : Nat
  startFromScratch : Nat
  bufferSize : Nat
  seed : Nat
deriving DecidableEq, Repr

/-- `save_embeddings_npy`: /repo/next-plaid/src/update.rs:308-346. -/
def saveEmbeddings (docs : List (List E.Row)) : List (Write E) :=
  if docs = [] then []
  else [.embNpy (some docs.flatten), .embLens (some (docs.map List.length))]

/-- `create_index_with_kmeans_files`: /repo/next-plaid/src/index.rs:927-971. -/
def createWithKmeans (cfg : Cfg) (docs : List (List E.Row)) : Res (List (Write E)) :=
  if docs = [] then .error .err
  else do
    let cs ← E.kmeans cfg.seed docs
    let ws ← createIndexFiles cfg.seed cfg.batchSize docs cs
    .ok (ws ++ if docs.length ≤ cfg.startFromScratch then saveEmbeddings docs else [])

/-! ### Low-level append -/

/-- Start chunk and whether the last chunk is extended: /repo/next-plaid/src/update.rs:795-827
(`current_emb_offset` is kept). -/
def appendTarget (d : Disk E) (m : Meta) : Nat × Bool × Nat :=
  if m.numChunks = 0 then (0, false, m.numEmbs)
  else
    match d.chunkMeta (m.numChunks - 1) with
    | some cm =>
      if cm.numDocs < 2000 then (m.numChunks - 1, true, cm.embOffset) else (m.numChunks, false, m.numEmbs)
    | none => (m.numChunks, false, m.numEmbs)

/-- The writes of new chunk `i`: /repo/next-plaid/src/update.rs:839-992. -/
def appendChunk (d : Disk E) (cs : List E.Cent) (q : E.Quant) (docs : List (List E.Row))
    (b start : Nat) (extend : Bool) (i off : Nat) : Res (List (Write E) × Nat) := do
  let g := start + i
  let chunkDocs := chunkSlice docs b i
  let batch := chunkDocs.flatten.map (E.encode cs q)
  let (lens, codes, res) ←
    if i = 0 ∧ extend then
      match d.doclens g with
      | some oldLens => do
        let oldCodes ← need (d.codes g)
        let oldRes ← need (d.residuals g)
        .ok (oldLens ++ chunkDocs.map List.length, oldCodes ++ batch.map (·.1), oldRes ++ batch.map (·.2))
      | none => .ok (chunkDocs.map List.length, batch.map (·.1), batch.map (·.2))
    else .ok (chunkDocs.map List.length, batch.map (·.1), batch.map (·.2))
  .ok ([ .codes g codes, .residuals g res, .doclens g lens,
         .chunkMeta g ⟨lens.length, codes.length, off⟩ ], off + codes.length)

/-- The loop over new chunks, threading `current_emb_offset`. -/
def appendChunks (d : Disk E) (cs : List E.Cent) (q : E.Quant) (docs : List (List E.Row))
    (b start : Nat) (extend : Bool) : (is : List Nat) → (off : Nat) → Res (List (Write E))
  | [], _ => .ok []
  | i :: is, off => do
    let (ws, off') ← appendChunk d cs q docs b start extend i off
    let rest ← appendChunks d cs q docs b start extend is off'
    .ok (ws ++ rest)

/-- Prefix sums `old_offsets`: /repo/next-plaid/src/update.rs:1031-1035 and
/repo/next-plaid/src/index.rs:1089-1094, 1106-1110. -/
def offsetsFrom (start : Nat) : List Nat → List Nat
  | [] => [start]
  | l :: ls => start :: offsetsFrom (start + l) ls

/-- The old document ids under a centroid: /repo/next-plaid/src/update.rs:1042-1054.
`old_offsets[centroid_id]` panics when the centroid lies beyond the stored offsets. -/
def oldPids (ivf : List Int) (lens : List Nat) (c : Nat) : Res (List Int) := do
  let start ← idx (offsetsFrom 0 lens) c
  let len := (lens[c]?).getD 0
  .ok (if 0 < len ∧ start + len ≤ ivf.length then (ivf.drop start).take len else [])

/-- The documents pushed under each code: /repo/next-plaid/src/update.rs:1000-1010. -/
def newPairs (first : Int) : List (List Nat) → List (Nat × Int)
  | [] => []
  | doc :: docs => doc.map (fun c => (c, first)) ++ newPairs (first + 1) docs

/-- `update_index`: /repo/next-plaid/src/update.rs:771-1120.  `new_codes_accumulated` is the list of
the documents' codes, computed chunk by chunk. -/
def updateIndex (d : Disk E) (docs : List (List E.Row)) (cs : List E.Cent) (q : E.Quant) (b : Nat)
    (updThr : Bool) : Res (List (Write E)) :=
  if b = 0 then .error .panic
  else do
    let m ← loadMeta d
    let (start, extend, off) := appendTarget d m
    let n := numChunksFor docs.length b
    let chunkWs ← appendChunks d cs q docs b start extend (List.range n) off
    let accumulated := ((List.range n).map fun i =>
      (chunkSlice docs b i).map fun doc => doc.map fun r => (E.encode cs q r).1).flatten
    let newToks := ((List.range n).map fun i => ((chunkSlice docs b i).map List.length).sum).sum
    let thrWs : List (Write E) :=
      if updThr ∧ newToks ≠ 0 then [.threshold (E.blendThr d.threshold docs m.numEmbs)] else []
    let pairs := newPairs (m.numDocs : Int) accumulated
    let oldIvf := d.ivf.getD []
    let oldLens := d.ivfLengths.getD (List.replicate cs.length 0)
    let lists ← (List.range cs.length).mapM fun c => do
      let old ← oldPids oldIvf oldLens c
      .ok (sortDedup (old ++ pidsOf pairs c))
    .ok (chunkWs ++ thrWs ++
      [ .ivf lists.flatten, .ivfLengths (lists.map List.length),
        .metadata ⟨start + n, cs.length, m.numEmbs + newToks, m.numDocs + docs.length⟩ ])

/-! ### Deletion -/

/-- The keep-loop over the documents of one chunk: /repo/next-plaid/src/delete.rs:104-115. -/
def keepMask (ids : List Int) : (docId : Int) → (lens : List Nat) → List Nat × List Bool
  | _, [] => ([], [])
  | docId, len :: lens =>
    let (nl, mask) := keepMask ids (docId + 1) lens
    if docId ∈ ids then (nl, List.replicate len false ++ mask)
    else (len :: nl, List.replicate len true ++ mask)

/-- `iter().zip(mask).filter_map(..)`: /repo/next-plaid/src/delete.rs:132-136. -/
def applyMask {β : Type} (l : List β) (mask : List Bool) : List β :=
  ((l.zip mask).filter (·.2)).map (·.1)

/-- `residuals.row(old_idx)` for every kept row: /repo/next-plaid/src/delete.rs:149-161; a kept row
beyond the matrix is a panic. -/
def applyMaskRows {β : Type} : (l : List β) → (mask : List Bool) → Res (List β)
  | _, [] => .ok []
  | [], true :: _ => .error .panic
  | [], false :: mask => applyMaskRows [] mask
  | a :: l, keep :: mask => do
    let rest ← applyMaskRows l mask
    .ok (if keep then a :: rest else rest)

/-- One chunk: /repo/next-plaid/src/delete.rs:92-185.  Returns the writes, the number of documents
and tokens kept, and the number of documents seen. -/
def deleteChunk (d : Disk E) (ids : List Int) (first : Int) (i : Nat) :
    Res (List (Write E) × Nat × Nat × Nat) := do
  let lens ← need (d.doclens i)
  let (newLens, mask) := keepMask ids first lens
  let ws : List (Write E) ←
    if newLens.length < lens.length then do
      let codes ← need (d.codes i)
      let newCodes := applyMask codes mask
      let res ← need (d.residuals i)
      let newRes ← applyMaskRows res mask
      let cm ← need (d.chunkMeta i)
      .ok [ .doclens i newLens, .codes i newCodes, .residuals i newRes,
            .chunkMeta i { cm with numDocs := newLens.length, numEmbs := newCodes.length } ]
    else .ok []
  .ok (ws, newLens.length, newLens.sum, lens.length)

/-- The loop over chunks: /repo/next-plaid/src/delete.rs:85-185. -/
def deleteChunks (d : Disk E) (ids : List Int) : (is : List Nat) → (first : Int) →
    Res (List (Write E) × Nat × Nat × Nat)
  | [], _ => .ok ([], 0, 0, 0)
  | i :: is, first => do
    let (ws, kept, toks, seen) ← deleteChunk d ids first i
    let (ws', kept', toks', seen') ← deleteChunks d ids is (first + seen)
    .ok (ws ++ ws', kept + kept', toks + toks', (seen - kept) + seen')

/-- `sorted_deleted.partition_point(|&d| d < doc_id)` over the set of requested ids:
/repo/next-plaid/src/delete.rs:210-225.  The set is a list without repetitions. -/
def shiftOf (ids : List Int) (docId : Int) : Nat := (ids.filter fun x => decide (x < docId)).length

/-- One centroid's list after deletion: /repo/next-plaid/src/delete.rs:220-228. -/
def patchList (ids : List Int) (l : List Int) : List Int :=
  (l.filter fun x => decide (x ∉ ids)).map fun x => x - (shiftOf ids x : Int)

/-- The IVF patch loop: /repo/next-plaid/src/delete.rs:213-231; slicing past the data is a panic. -/
def patchIvf (ids : List Int) (ivf : List Int) : (lens : List Nat) → (off : Nat) → Res (List (List Int))
  | [], _ => .ok []
  | len :: lens, off =>
    if ivf.length < off + len then .error .panic
    else do
      let rest ← patchIvf ids ivf lens (off + len)
      .ok (patchList ids ((ivf.drop off).take len) :: rest)

/-- The keep-loop of `clean_embeddings_files`: /repo/next-plaid/src/delete.rs:307-319, 358-371
(`take` clips at the end of the matrix, as the `row_idx < flat.nrows()` guard does). -/
def cleanRows {β : Type} (ids : List Int) : (docId : Int) → (lens : List Nat) → (rows : List β) →
    List β × List Nat
  | _, [], _ => ([], [])
  | docId, len :: lens, rows =>
    let (r, l) := cleanRows ids (docId + 1) lens (rows.drop len)
    if docId ∈ ids then (r, l) else (rows.take len ++ r, len :: l)

/-- `clean_embeddings_files`: /repo/next-plaid/src/delete.rs:286-398. -/
def cleanEmbeddingsFiles (d : Disk E) (ids : List Int) (originalNumDocs : Nat) : List (Write E) :=
  (match d.embNpy, d.embLens with
   | some flat, some lens =>
     let (rows, newLens) := cleanRows ids 0 lens flat
     if newLens ≠ [] then [.embNpy (some rows), .embLens (some newLens)]
     else [.embNpy none, .embLens none]
   | _, _ => []) ++
  (match d.buffer, d.bufferLens with
   | some flat, some lens =>
     let first : Int := (originalNumDocs : Int) - (lens.length : Int)
     let (rows, newLens) := cleanRows ids first lens flat
     if newLens ≠ [] then
       [.buffer (some rows), .bufferLens (some newLens), .bufferInfo (some newLens.length)]
     else [.buffer none, .bufferLens none, .bufferInfo none]
   | _, _ => [])

/-- `delete_from_index_impl`: /repo/next-plaid/src/delete.rs:66-273.  `ids_to_delete` is a set.
`clear_merged_files` acts on the merged files only (`Verif.Model.Merge`). -/
def deleteImpl (d : Disk E) (docIds : List Int) (cleanBuffer : Bool) : Res (List (Write E) × Nat) := do
  let m ← loadMeta d
  let ids := docIds.eraseDups
  let (ws, kept, toks, deleted) ← deleteChunks d ids (List.range m.numChunks) 0
  let oldIvf ← need d.ivf
  let oldLens ← need d.ivfLengths
  let lists ← patchIvf ids oldIvf oldLens 0
  .ok (ws ++
    [ .ivf lists.flatten, .ivfLengths (lists.map List.length),
      .metadata ⟨m.numChunks, m.numPartitions, toks, kept⟩ ] ++
    (if cleanBuffer then cleanEmbeddingsFiles d ids m.numDocs else []), deleted)

/-! ### Loading -/

/-- The loaded index, `MmapIndex`: /repo/next-plaid/src/index.rs:995-1016. -/
structure Loaded (E : Env) where
  metadata : Meta
  centroids : List E.Cent
  quant : E.Quant
  ivf : List Int
  ivfLengths : List Nat
  ivfOffsets : List Nat
  docLengths : List Nat
  docOffsets : List Nat
  codes : List Nat
  residuals : List E.Pk

/-- `merge_codes_chunks` / `merge_residuals_chunks` when nothing is cached: the rows of the existing
chunk files in order, then the padding: /repo/next-plaid/src/mmap.rs:1317-1403, 1535-1629. -/
def mergeRows {β : Type} (files : Nat → Option (List β)) (n : Nat) (pad : Nat) (zero : β) :
    Res (List β) :=
  let rows := ((List.range n).map fun i => (files i).getD []).flatten
  if rows.length = 0 then .error .err else .ok (rows ++ List.replicate pad zero)

/-- `MmapIndex::load`: /repo/next-plaid/src/index.rs:1026-1139 (without the legacy conversion,
which is modelled in `Verif.Model.Convert`). -/
def load (d : Disk E) : Res (Loaded E) := do
  let m ← loadMeta d
  let cs ← need d.centroids
  let q ← need d.quant
  let ivf ← need d.ivf
  let ivfLengths ← need d.ivfLengths
  let lens ← (List.range m.numChunks).mapM fun i => need (d.doclens i)
  let docLengths := lens.flatten
  let maxLen := docLengths.foldl Nat.max 0
  let lastLen := docLengths.getLast?.getD 0
  let pad := maxLen - lastLen
  let codes ← mergeRows d.codes m.numChunks pad 0
  let residuals ← mergeRows d.residuals m.numChunks pad E.zeroPk
  .ok { metadata := m, centroids := cs, quant := q, ivf := ivf, ivfLengths := ivfLengths,
        ivfOffsets := offsetsFrom 0 ivfLengths, docLengths := docLengths,
        docOffsets := offsetsFrom 0 docLengths, codes := codes, residuals := residuals }

/-- `num_documents`: /repo/next-plaid/src/index.rs:1290-1292. -/
def Loaded.numDocuments (x : Loaded E) : Nat := x.docLengths.length

/-- Slicing a memory-mapped array, a panic when out of bounds. -/
def slice {β : Type} (l : List β) (s e : Nat) : Res (List β) :=
  if e < s ∨ l.length < e then .error .panic else .ok ((l.drop s).take (e - s))

/-- The codes and packed residuals of one document: the reads of `get_document_embeddings`,
/repo/next-plaid/src/index.rs:1159-1175, before decompression. -/
def Loaded.docTokens (x : Loaded E) (i : Nat) : Res (List (Nat × E.Pk)) :=
  if x.docLengths.length ≤ i then .error .err
  else do
    let s ← idx x.docOffsets i
    let e ← idx x.docOffsets (i + 1)
    let cs ← slice x.codes s e
    let rs ← slice x.residuals s e
    .ok (cs.zip rs)

/-- `get_candidates`: /repo/next-plaid/src/index.rs:1142-1156. -/
def Loaded.candidates (x : Loaded E) (cents : List Nat) : Res (List Int) := do
  let parts ← cents.mapM fun c =>
    if c < x.ivfLengths.length then do
      let start ← idx x.ivfOffsets c
      let len ← idx x.ivfLengths c
      slice x.ivf start (start + len)
    else .ok []
  .ok (sortDedup parts.flatten)

/-! ### High-level update -/

/-- The splitting loop of `load_buffer` and `load_embeddings_npy`:
/repo/next-plaid/src/update.rs:153-164, 283-294. -/
def splitRows {β : Type} : (lens : List Nat) → (rows : List β) → List (List β)
  | [], _ => []
  | len :: lens, rows =>
    if rows.length < len then [] else rows.take len :: splitRows lens (rows.drop len)

/-- `load_buffer` / `load_embeddings_npy`: /repo/next-plaid/src/update.rs:132-171, 265-301. -/
def loadRaw {β : Type} (flat : Option (List β)) (lens : Option (List Nat)) : List (List β) :=
  match flat with
  | none => []
  | some rows =>
    match lens with
    | some ls => splitRows ls rows
    | none => [rows]

/-- `save_buffer`: /repo/next-plaid/src/update.rs:176-226. -/
def saveBuffer (docs : List (List E.Row)) : List (Write E) :=
  if docs = [] then []
  else [.buffer (some docs.flatten), .bufferLens (some (docs.map List.length)),
        .bufferInfo (some docs.length)]

/-- `clear_buffer`: /repo/next-plaid/src/update.rs:243-259. -/
def clearBuffer : List (Write E) := [.buffer none, .bufferLens none, .bufferInfo none]

/-- `update_centroids`: /repo/next-plaid/src/update.rs:621-751.  Returns the writes and the number of
new centroids. -/
def updateCentroids (d : Disk E) (docs : List (List E.Row)) (thr : E.Thr) (seed : Nat) :
    Res (List (Write E) × Nat) :=
  match d.centroids with
  | none => .ok ([], 0)
  | some cs =>
    if docs.flatten.length = 0 then .ok ([], 0)
    else do
      let new ← E.expand seed cs thr docs
      if new = [] then .ok ([], 0)
      else do
        let total := cs.length + new.length
        let lenWs : List (Write E) ← match d.ivfLengths with
          | some lens =>
            -- `new_lengths.slice_mut(..old.len()).assign(old)`: a panic when the old file is longer
            if total < lens.length then .error .panic
            else .ok [.ivfLengths (lens ++ List.replicate (total - lens.length) 0)]
          | none => .ok []
        let metaWs : List (Write E) := match d.metadata with
          | some m => [.metadata { m with numPartitions := total }]
          | none => []
        .ok ([.centroids (cs ++ new)] ++ lenWs ++ metaWs, new.length)

/-- `ResidualCodec::load_from_dir`: /repo/next-plaid/src/codec.rs:473-540. -/
def loadCodec (d : Disk E) : Res (List E.Cent × E.Quant) := do
  let cs ← need d.centroids
  let q ← need d.quant
  .ok (cs, q)

/-- The ids an update returns: `(start..start + n).collect()`. -/
def idRange (start n : Nat) : List Int := (List.range n).map fun i => ((start + i : Nat) : Int)

/-- Removal of the buffered documents before they are indexed again:
/repo/next-plaid/src/index.rs:1517-1533.  Returns the directory and the document count. -/
def dropBuffered (d : Disk E) (memDocs : Nat) : Res (Disk E × Nat) :=
  let numBuffered := d.bufferInfo.getD 0
  if 0 < numBuffered ∧ numBuffered ≤ memDocs then do
    let r ← deleteImpl d (idRange (memDocs - numBuffered) numBuffered) false
    let m ← loadMeta (applyAll d r.1)
    .ok (applyAll d r.1, m.numDocs)
  else .ok (d, memDocs)

/-- Centroid expansion when there is a cluster threshold: /repo/next-plaid/src/index.rs:1539-1550. -/
def expandCentroids (d : Disk E) (docs : List (List E.Row)) (seed : Nat) : Res (Disk E) :=
  match d.threshold with
  | some thr => do
    let r ← updateCentroids d docs thr seed
    .ok (applyAll d r.1)
  | none => .ok d

/-- Centroid-expansion branch of `update`: /repo/next-plaid/src/index.rs:1515-1562. -/
def updateExpand (d : Disk E) (memDocs : Nat) (buffer docs : List (List E.Row)) (cfg : Cfg) :
    Res (Disk E × Nat) := do
  let r ← dropBuffered d memDocs
  let start := r.2 + buffer.length
  let d ← expandCentroids r.1 (buffer ++ docs) cfg.seed
  let codec ← loadCodec d
  let d := applyAll d clearBuffer
  let ws ← updateIndex d (buffer ++ docs) codec.1 codec.2 cfg.batchSize true
  .ok (applyAll d ws, start)

/-- Small-update branch of `update`: /repo/next-plaid/src/index.rs:1563-1584. -/
def updateBuffered (d : Disk E) (memDocs : Nat) (buffer docs : List (List E.Row)) (cfg : Cfg) :
    Res (Disk E × Nat) := do
  let (cs, q) ← loadCodec d
  let d := applyAll d (saveBuffer (buffer ++ docs))
  let ws ← updateIndex d docs cs q cfg.batchSize false
  .ok (applyAll d ws, memDocs)

/-- The from-scratch branch of `update`: /repo/next-plaid/src/index.rs:1464-1499. -/
def updateScratch (d : Disk E) (existing docs : List (List E.Row)) (cfg : Cfg) :
    Res (Disk E × List Int) := do
  let combined := existing ++ docs
  let ws ← createWithKmeans cfg combined
  let d := applyAll d ws
  let _ ← load d
  let d := if cfg.startFromScratch < combined.length then applyAll d [.embNpy none, .embLens none] else d
  .ok (d, idRange existing.length docs.length)

/-- The choice between the two incremental branches: /repo/next-plaid/src/index.rs:1501-1514. -/
def updateIncremental (d : Disk E) (memDocs : Nat) (docs : List (List E.Row)) (cfg : Cfg) :
    Res (Disk E × Nat) :=
  let buffer := loadRaw d.buffer d.bufferLens
  if cfg.bufferSize ≤ docs.length + buffer.length then updateExpand d memDocs buffer docs cfg
  else updateBuffered d memDocs buffer docs cfg

/-- `MmapIndex::update`: /repo/next-plaid/src/index.rs:1431-1591.  `memDocs` is
`self.metadata.num_documents`, the in-memory count of the handle.  Returns the directory and the ids.
The codec reload after an expansion is the `loadCodec` in `updateExpand`; when there was no expansion
the codec loaded earlier is the same. -/
def update (d : Disk E) (memDocs : Nat) (docs : List (List E.Row)) (cfg : Cfg) :
    Res (Disk E × List Int) :=
  let existing := loadRaw d.embNpy d.embLens
  if memDocs ≤ cfg.startFromScratch ∧ existing.length = memDocs then
    updateScratch d existing docs cfg
  else do
    let _ ← loadCodec d
    let r ← updateIncremental d memDocs docs cfg
    let _ ← load r.1
    .ok (r.1, idRange r.2 docs.length)

/-- `MmapIndex::update_or_create`: /repo/next-plaid/src/index.rs:1644-1665. -/
def updateOrCreate (d : Disk E) (docs : List (List E.Row)) (cfg : Cfg) : Res (Disk E × List Int) :=
  match d.metadata with
  | some _ => do
    let x ← load d
    update d x.metadata.numDocs docs cfg
  | none => do
    let ws ← createWithKmeans cfg docs
    let d := applyAll d ws
    let _ ← load d
    .ok (d, idRange 0 docs.length)

/-- `MmapIndex::update_append`: /repo/next-plaid/src/index.rs:1675-1699. -/
def updateAppend (d : Disk E) (docs : List (List E.Row)) (cfg : Cfg) : Res (Disk E × List Int) := do
  let m ← loadMeta d
  let (cs, q) ← loadCodec d
  let ws ← updateIndex d docs cs q cfg.batchSize false
  .ok (applyAll d ws, idRange m.numDocs docs.length)

/-- `delete_from_index`: /repo/next-plaid/src/delete.rs:43-45. -/
def deleteFromIndex (d : Disk E) (docIds : List Int) : Res (Disk E × Nat) := do
  let (ws, n) ← deleteImpl d docIds true
  .ok (applyAll d ws, n)

end NextPlaid.Index
