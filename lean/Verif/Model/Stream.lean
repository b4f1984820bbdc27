import Verif.Model.Encode

/-!
Streams of document embeddings with their threads, channels and destructors: /repo/next-plaid-onnx/src/lib.rs:783-855
(`RawDocumentEmbeddingStream`, `DocumentEmbeddingStream`), 1379-1487 (`encode_documents_stream`,
`encode_documents_raw_stream`).

The channels are unbounded, so a send never waits; it fails once the receiver is dropped.  `Drop` joins the threads first;
the receiver, a field, is dropped after that (812-816, 846-850).  A thread that panics drops its sender.
-/

namespace NextPlaid.Stream

open NextPlaid

/-- Where the thread of a session is. -/
inductive Worker (W : Type) where
  /-- before `queue.lock()`, line 1437 -/
  | idle
  /-- with a chunk, before `session_mutex.lock().unwrap()`, line 1448 -/
  | busy (w : W)
  /-- it has returned -/
  | ended
  /-- it has panicked -/
  | dead
  deriving DecidableEq

/-- The owner of a stream: it reads; it is in `join_workers`; the stream is dropped. -/
inductive Owner where
  | reading | joining | gone
  deriving DecidableEq

/-- A raw stream.  `poisoned` has a flag for each session's mutex, which outlives the stream. -/
structure Raw (W R : Type) where
  queue : List W
  workers : List (Worker W)
  poisoned : List Bool
  chan : List R := []
  got : List R := []
  owner : Owner := .reading

/-- What can happen to a raw stream. -/
inductive Event where
  | take (i : Nat)
  | finish (i : Nat)
  /-- another call panics while it holds session `i` -/
  | poison (i : Nat)
  | recv
  | drop
  | joined
  deriving DecidableEq

variable {W R P : Type}

/-- A stream with chunks: one thread for each session, lines 1431-1486. -/
def start (queue : List W) (poisoned : List Bool) : Raw W R := ⟨queue, poisoned.map fun _ => .idle, poisoned, [], [], .reading⟩

/-- The thread has ended, one way or the other. -/
def Worker.over : Worker W → Bool
  | .ended => true
  | .dead => true
  | _ => false

/-- All threads have ended: their senders are dropped, and `join` returns. -/
def Raw.allOver (s : Raw W R) : Bool := s.workers.all Worker.over

/-- `next` returns `None`: lines 800-810. -/
def Raw.closed (s : Raw W R) : Bool := s.owner = .reading && s.chan.isEmpty && s.allOver

/-- A thread takes the next chunk, or ends: lines 1436-1443. -/
def Raw.take (s : Raw W R) (i : Nat) : Option (Raw W R) :=
  match s.workers[i]?, s.queue with
  | some .idle, w :: q => some { s with queue := q, workers := s.workers.set i (.busy w) }
  | some .idle, [] => some { s with workers := s.workers.set i .ended }
  | _, _ => none

/-- A thread encodes its chunk and sends the result: lines 1445-1471.  `job i w` is `none` when that panics, which poisons the
mutex of the session. -/
def Raw.finish (job : Nat → W → Option R) (s : Raw W R) (i : Nat) : Option (Raw W R) :=
  match s.workers[i]? with
  | some (.busy w) =>
    if s.poisoned.getD i false then some { s with workers := s.workers.set i .dead }
    else
      match job i w with
      | none => some { s with workers := s.workers.set i .dead, poisoned := s.poisoned.set i true }
      | some r =>
        if s.owner = .gone then some { s with workers := s.workers.set i .ended }
        else some { s with workers := s.workers.set i .idle, chan := s.chan ++ [r] }
  | _ => none

/-- One step of a raw stream; `none` when the event cannot happen. -/
def Raw.step (job : Nat → W → Option R) (s : Raw W R) : Event → Option (Raw W R)
  | .take i => s.take i
  | .finish i => s.finish job i
  | .poison i => some { s with poisoned := s.poisoned.set i true }
  | .recv =>
    match s.owner, s.chan with
    | .reading, r :: c => some { s with chan := c, got := s.got ++ [r] }
    | _, _ => none
  | .drop => if s.owner = .reading then some { s with owner := .joining } else none
  | .joined => if s.owner = .joining ∧ s.allOver then some { s with owner := .gone } else none

/-- A schedule. -/
def Raw.run (job : Nat → W → Option R) : Raw W R → List Event → Option (Raw W R)
  | s, [] => some s
  | s, e :: es => (s.step job e).bind fun s' => Raw.run job s' es

/-! ### The stream of pooled embeddings -/

/-- A stream of pooled embeddings: the thread that pools owns a raw stream. -/
structure Pooled (W R P : Type) where
  raw : Raw W R
  /-- what the thread holds between `next` and `send` -/
  hand : Option R := none
  chan : List P := []
  got : List P := []
  owner : Owner := .reading

/-- What can happen to it. -/
inductive PEvent where
  /-- a thread of a session -/
  | take (i : Nat)
  | finish (i : Nat)
  | poison (i : Nat)
  /-- the pooling thread: `next`, pooling and `send`, `next` that returns `None`, the end of `join_workers` -/
  | fetch
  | pool
  | close
  | join
  /-- the caller -/
  | recv
  | drop
  | joined
  deriving DecidableEq

/-- `next` returns `None`: the pooling thread has ended, and with it its sender. -/
def Pooled.closed (s : Pooled W R P) : Bool := s.owner = .reading && s.chan.isEmpty && s.raw.owner = .gone

/-- Pooling and `send`: lines 1393-1402.  `pool r` is `none` when pooling panics; then, and when the receiver is gone, the raw
stream is dropped. -/
def Pooled.send (pool : R → Option P) (s : Pooled W R P) (r : R) : Pooled W R P :=
  match pool r with
  | none => { s with hand := none, raw := { s.raw with owner := .joining } }
  | some p =>
    if s.owner = .gone then { s with hand := none, raw := { s.raw with owner := .joining } }
    else { s with hand := none, chan := s.chan ++ [p] }

/-- One step of a stream of pooled embeddings. -/
def Pooled.step (job : Nat → W → Option R) (pool : R → Option P) (s : Pooled W R P) : PEvent → Option (Pooled W R P)
  | .take i => (s.raw.step job (.take i)).map fun r => { s with raw := r }
  | .finish i => (s.raw.step job (.finish i)).map fun r => { s with raw := r }
  | .poison i => (s.raw.step job (.poison i)).map fun r => { s with raw := r }
  | .fetch =>
    match s.hand, s.raw.owner, s.raw.chan with
    | none, .reading, r :: c => some { s with hand := some r, raw := { s.raw with chan := c, got := s.raw.got ++ [r] } }
    | _, _, _ => none
  | .pool =>
    match s.hand with
    | some r => some (s.send pool r)
    | none => none
  | .close =>
    if s.hand.isNone ∧ s.raw.closed then some { s with raw := { s.raw with owner := .joining } } else none
  | .join => (s.raw.step job .joined).map fun r => { s with raw := r }
  | .recv =>
    match s.owner, s.chan with
    | .reading, p :: c => some { s with chan := c, got := s.got ++ [p] }
    | _, _ => none
  | .drop => if s.owner = .reading then some { s with owner := .joining } else none
  | .joined => if s.owner = .joining ∧ s.raw.owner = .gone then some { s with owner := .gone } else none

/-- A schedule. -/
def Pooled.run (job : Nat → W → Option R) (pool : R → Option P) : Pooled W R P → List PEvent → Option (Pooled W R P)
  | s, [] => some s
  | s, e :: es => (s.step job pool e).bind fun s' => Pooled.run job pool s' es

/-! ### Documents -/

/-- `encode_documents_raw_stream`: without documents there are no threads, lines 1421-1427. -/
def rawStream {T : Type} (batchSize : Nat) (poisoned : List Bool) (texts : List T) : Raw (Nat × Nat × List T) R :=
  if texts = [] then start [] [] else start (Encode.workQueue batchSize texts) poisoned

/-- `encode_documents_stream`: lines 1383-1411. -/
def pooledStream {T : Type} (batchSize : Nat) (poisoned : List Bool) (texts : List T) : Pooled (Nat × Nat × List T) R P :=
  ⟨rawStream batchSize poisoned texts, none, [], [], .reading⟩

/-- Encoding one chunk, with the panic taken apart: lines 1445-1468. -/
def job {T E : Type} (direct : Nat → List T → Res (List E)) (i : Nat) (w : Nat × Nat × List T) : Option (Res (Nat × Nat × List E)) :=
  match Encode.streamJob direct i w with
  | .error .panic => none
  | r => some r

/-- `pool_document_embeddings` on a chunk; a failure is passed on: lines 1394-1398.  `pool1` is the pooling of one document. -/
def poolChunk {E E' : Type} (pool1 : E → Option E') : Res (Nat × Nat × List E) → Option (Res (Nat × Nat × List E'))
  | .ok c => (c.2.2.mapM pool1).map fun es => .ok (c.1, c.2.1, es)
  | .error f => some (.error f)

end NextPlaid.Stream
