import Verif.Model.Encode
import Verif.Model.Net

/-!
Model of colgrep's indexing pipeline: /repo/colgrep/src/index/mod.rs lines 360-985.  `U` is a code unit, `T` its text, `D` its tokens and `E` its
embeddings.  Threads and channels are those of `Model/Net`; the encoder is that of `Model/Encode`.
-/

namespace NextPlaid.Pipeline

open NextPlaid.Net

variable {U T D E : Type}

/-- `SortedUnit`: lines 366-370. -/
structure Item (U T : Type) where
  unit : U
  text : T

/-- The strided sample first, then the others: lines 441-457. -/
def prefixSample {α : Type} (n : Nat) (items : List α) : List α :=
  let k := min n items.length
  if 0 < k ∧ k < items.length then
    let stride := items.length / k
    let sampled := fun i : Nat => (List.range k).any fun j => j * stride == i
    (items.zipIdx.filter fun p => sampled p.2).map (·.1) ++ (items.zipIdx.filter fun p => !sampled p.2).map (·.1)
  else items

/-- `prepare_units_for_encoding`: lines 421-457.  `text` is `build_embedding_text`; `sort` is `sort_unstable_by` on file and line. -/
def prepareUnits (text : U → T) (sort : List (Item U T) → List (Item U T)) (n : Nat) (units : List U) : List (Item U T) :=
  prefixSample n (sort (units.map fun u => ⟨u, text u⟩))

/-- The loop of `prepare_deduplicated_chunk`: lines 468-477; `texts` are the unique texts so far, `places` the places so far. -/
def dedupLoop [DecidableEq T] : List (Item U T) → List T → List Nat → List T × List Nat
  | [], texts, places => (texts, places)
  | it :: rest, texts, places =>
    match texts.idxOf? it.text with
    | some i => dedupLoop rest texts (places ++ [i])
    | none => dedupLoop rest (texts ++ [it.text]) (places ++ [texts.length])

/-- What goes from thread to thread: lines 374-411. -/
inductive Msg (U T D E : Type) where
  | prepared (units : List U) (texts : List T) (places : List Nat)
  | tokenized (units : List U) (batches : List (Encode.Batch D)) (places : List Nat)
  | raw (units : List U) (embs : List E) (places : List Nat)
  | pooled (units : List U) (embs : List E)
  | indexed (units : List U) (ids : List Nat)

/-- `prepare_deduplicated_chunk`: lines 463-487. -/
def prepareChunk [DecidableEq T] (chunk : List (Item U T)) : Msg U T D E :=
  .prepared (chunk.map (·.unit)) (dedupLoop chunk [] []).1 (dedupLoop chunk [] []).2

/-- The state of a thread.  `failed`: it has returned early, with an error, by a panic or by an interruption; `seen`: how many messages it has
handled.  `docs` is the vector index on disk and `rows` the metadata database; the other fields are those of the index stage. -/
structure St (U E : Type) where
  failed : Bool := false
  seen : Nat := 0
  docs : List E := []
  rows : List (Nat × U) := []
  pendUnits : List U := []
  pendEmbs : List E := []

/-- The choices a run depends on. -/
structure Setup (U T D E : Type) where
  engine : Encode.Engine T D E
  /-- `pool_document_embeddings`, one document: /repo/next-plaid-onnx/src/lib.rs:1632-1643. -/
  pool : E → E
  /-- `index_chunk_size`. -/
  chunk : Nat
  /-- `UPDATE_FLUSH_DOC_LIMIT`: line 317. -/
  limit : Nat
  /-- There is no index yet: line 596. -/
  create : Bool
  /-- The user has interrupted before the encoder takes its `i`-th chunk, or before batch `j` of it: lines 496-512. -/
  interrupted : Nat → Bool
  cancelled : Nat → Nat → Bool
  /-- Whether the `i`-th write to the index, and to the database, succeeds. -/
  writeOk : Nat → Bool
  metaOk : Nat → Bool

/-- `while let Ok(chunk) = receiver.recv() { ... sender.send(...)? }` where the body may end the thread.  A thread that has ended takes nothing more;
that the sender's next `send` fails is not modelled, its messages are lost in any case. -/
def mapStage {M : Type} (f : Nat → M → Option M) : Stage (St U E) M where
  recv s m :=
    if s.failed then (s, [])
    else
      match f s.seen m with
      | some m' => ({ s with seen := s.seen + 1 }, [m'])
      | none => ({ s with failed := true }, [])
  close s := (s, [])

/-- `run_tokenize_stage`: lines 527-550. -/
def tokenizeStep (p : Setup U T D E) (_ : Nat) : Msg U T D E → Option (Msg U T D E)
  | .prepared units texts places =>
    match Encode.tokenize p.engine texts with
    | .ok bs => some (.tokenized units bs places)
    | .error _ => none
  | _ => none

/-- `run_encode_stage`: lines 489-525. -/
def encodeStep (p : Setup U T D E) (i : Nat) : Msg U T D E → Option (Msg U T D E)
  | .tokenized units bs places =>
    if p.interrupted i then none
    else
      match Encode.encodeBatches p.engine (p.cancelled i) bs with
      | .ok es => some (.raw units es places)
      | .error _ => none
  | _ => none

/-- `run_pool_stage`: lines 555-578; `pooled_unique[unique_idx]` panics out of bounds. -/
def poolStep (p : Setup U T D E) (_ : Nat) : Msg U T D E → Option (Msg U T D E)
  | .raw units es places =>
    match places.mapM (idx (es.map p.pool)) with
    | .ok out => some (.pooled units out)
    | .error _ => none
  | _ => none

/-- `flush_update_batch`: lines 740-770.  `update_append` gives the new documents the ids that follow the last one. -/
def flush (p : Setup U T D E) (s : St U E) : St U E × List (Msg U T D E) :=
  if s.pendEmbs = [] then (s, [])
  else if p.writeOk s.seen then
    ({ s with docs := s.docs ++ s.pendEmbs, pendEmbs := [], pendUnits := [], seen := s.seen + 1 },
      [.indexed s.pendUnits (List.range' s.docs.length s.pendEmbs.length)])
  else ({ s with failed := true }, [])

/-- `run_index_stage`: lines 588-735.  A new index (lines 598-697) is written at the end, while its rows are sent on at once; the k-means and
coding threads inside are one with this stage.  An existing one (lines 700-735) is appended to in batches. -/
def indexStage (p : Setup U T D E) : Stage (St U E) (Msg U T D E) where
  recv s m :=
    match m with
    | .pooled units embs =>
      if s.failed then (s, [])
      else if p.create then
        ({ s with pendEmbs := s.pendEmbs ++ embs, seen := s.seen + 1 }, [.indexed units (List.range' s.pendEmbs.length embs.length)])
      else if (s.pendEmbs ++ embs).length ≥ p.limit then flush p { s with pendUnits := s.pendUnits ++ units, pendEmbs := s.pendEmbs ++ embs }
      else ({ s with pendUnits := s.pendUnits ++ units, pendEmbs := s.pendEmbs ++ embs }, [])
    | _ => (s, [])
  close s :=
    if s.failed then (s, [])
    else if p.create then
      if s.seen = 0 then (s, [])
      else if p.writeOk 0 then ({ s with docs := s.pendEmbs }, [])
      else ({ s with failed := true }, [])
    else flush p s

/-- `run_metadata_stage`: lines 821-868.  Removing the documents of a failed chunk from the index is not modelled. -/
def metaStage (p : Setup U T D E) : Stage (St U E) (Msg U T D E) where
  recv s m :=
    match m with
    | .indexed units ids =>
      if s.failed then (s, [])
      else if p.metaOk s.seen then ({ s with rows := s.rows ++ ids.zip units, seen := s.seen + 1 }, [])
      else ({ s with failed := true }, [])
    | _ => (s, [])
  close s := (s, [])

/-- The chunks: line 945. -/
def chunks (p : Setup U T D E) (items : List (Item U T)) : List (List (Item U T)) := Encode.pieces p.chunk items

/-- `run_chunk_pipeline`: lines 880-985, before its threads have begun.  `caps` are the capacities of the five channels (2, 2, 2, 4 and 8); `sent` is
the number of chunks the main thread sends before it is interrupted. -/
def start [DecidableEq T] (p : Setup U T D E) (caps : Fin 5 → Nat) (docs : List E) (rows : List (Nat × U)) (items : List (Item U T)) (sent : Nat) :
    List (Cell (St U E) (Msg U T D E)) :=
  source {} (((chunks p items).take sent).map prepareChunk) ::
    [fresh (mapStage (tokenizeStep p)) (caps 0) {}, fresh (mapStage (encodeStep p)) (caps 1) {}, fresh (mapStage (poolStep p)) (caps 2) {},
      fresh (indexStage p) (caps 3) { docs := docs }, fresh (metaStage p) (caps 4) { rows := rows }]

/-- The vector index, at some moment of a run. -/
def docsOf (cs : List (Cell (St U E) (Msg U T D E))) : List E := ((cs[4]?).map fun c => c.state.docs).getD []

/-- The metadata database. -/
def rowsOf (cs : List (Cell (St U E) (Msg U T D E))) : List (Nat × U) := ((cs[5]?).map fun c => c.state.rows).getD []

/-- All threads returned `Ok` and none was interrupted. -/
def Succeeded (cs : List (Cell (St U E) (Msg U T D E))) : Prop := ∀ c ∈ cs, c.state.failed = false

end NextPlaid.Pipeline
