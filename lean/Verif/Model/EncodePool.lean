import Verif.Model.Basic
import Mathlib.Data.List.Dedup

/-!
Model of the pool of encoding workers of the API server: /repo/next-plaid-api/src/handlers/encode.rs.

Handlers and workers are one transition system.  The clock is not modelled: the deadline of a worker that collects requests may pass at any moment
after the first one.  Receiving under `tokio::time::timeout` is one step (documented cancel safety).  The sender is in a static variable, so the
channel is never closed from that side; it is closed when all workers, which share the receiver, are gone.  A panic ends the task of the worker.
-/

namespace NextPlaid.EncodePool

/-- `InputType`: /repo/next-plaid-api/src/models.rs. -/
inductive Input where
  | query
  | document
deriving DecidableEq

/-- `EncodeBatchItem`: encode.rs:66-76.  `client` stands for the channel of the answer. -/
structure Item (T : Type) where
  client : Nat
  texts : List T
  input : Input
  factor : Option Nat
deriving DecidableEq

/-- What a client gets: encode.rs:541-545. -/
inductive Answer (E : Type) where
  | embeddings (es : List E)
  /-- the model reports an error -/
  | failed
  /-- the channel was dropped without an answer -/
  | dropped
deriving DecidableEq

/-- `encode worker input factor texts` is `encode_texts_with_model`, encode.rs:376-412; `order` is the order in which the hash map of groups is read. -/
structure Setup (T E : Type) where
  maxTexts : Nat
  capacity : Nat
  encode : Nat → Input → Option Nat → List T → Res (List E)
  order : List (Option Nat) → List (Option Nat)

variable {T E : Type}

/-- The embeddings are cut into those of each request: encode.rs:300-307 and 333-340. -/
def distribute (es : List E) : Nat → List (Nat × Item T) → Res (List (Nat × Answer E))
  | _, [] => .ok []
  | offset, (idx, item) :: rest =>
    if offset + item.texts.length ≤ es.length then
      match distribute es (offset + item.texts.length) rest with
      | .ok r => .ok ((idx, .embeddings ((es.drop offset).take item.texts.length)) :: r)
      | .error f => .error f
    else .error .panic

/-- One group of requests: encode.rs:288-315 and 319-348. -/
def encodeGroup (enc : List T → Res (List E)) (items : List (Nat × Item T)) : Res (List (Nat × Answer E)) :=
  match enc (items.flatMap fun x => x.2.texts) with
  | .ok es => distribute es 0 items
  | .error .err => .ok (items.map fun x => (x.1, .failed))
  | .error .panic => .error .panic

/-- The groups of documents, one after the other: encode.rs:318-349. -/
def encodeGroups (c : Setup T E) (worker : Nat) (docs : List (Nat × Item T)) : List (Option Nat) → Res (List (Nat × Answer E))
  | [] => .ok []
  | key :: rest =>
    match encodeGroup (c.encode worker .document key) (docs.filter fun x => x.2.factor = key) with
    | .error f => .error f
    | .ok r1 =>
      match encodeGroups c worker docs rest with
      | .error f => .error f
      | .ok r2 => .ok (r1 ++ r2)

/-- `process_encode_batch_with_model`: encode.rs:254-358. -/
def processBatch (c : Setup T E) (worker : Nat) (items : List (Item T)) : Res (List (Item T × Answer E)) :=
  let indexed := items.zipIdx.map fun x => (x.2, x.1)
  let queries := indexed.filter fun x => x.2.input = .query
  let docs := indexed.filter fun x => x.2.input = .document
  let keys := c.order (docs.map fun x => x.2.factor).dedup
  match (if queries = [] then .ok [] else encodeGroup (c.encode worker .query none) queries) with
  | .error f => .error f
  | .ok r1 =>
    match encodeGroups c worker docs keys with
    | .error f => .error f
    | .ok r2 => .ok (indexed.map fun x => (x.2, ((r1 ++ r2).lookup x.1).getD .failed))

/-- Where a worker is: encode.rs:118-142 and 186-247. -/
inductive Worker (T : Type) where
  /-- the model is being built -/
  | starting
  /-- waiting for the lock of the receiver, line 195 -/
  | waiting
  /-- with the lock, lines 198-239 -/
  | collecting (items : List (Item T))
  /-- in `process_encode_batch_with_model`, without the lock -/
  | working (items : List (Item T))
  /-- the task has ended -/
  | gone

/-- The pool.  `accepted` is history only. -/
structure State (T E : Type) where
  queue : List (Item T)
  workers : List (Worker T)
  lock : Option Nat
  answers : List (Item T × Answer E)
  accepted : List (Item T)

/-- A new pool: encode.rs:90-152. -/
def initial (size : Nat) : State T E := ⟨[], List.replicate size .starting, none, [], []⟩

def Worker.alive : Worker T → Bool
  | .gone => false
  | _ => true

/-- What can happen. -/
inductive Event (T : Type) where
  /-- a request comes: `try_send`, encode.rs:531-538 -/
  | request (item : Item T)
  /-- the model of a worker has been built, or not: lines 124-138 -/
  | start (worker : Nat) (ok : Bool)
  /-- a worker gets the lock: line 195 -/
  | acquire (worker : Nat)
  /-- a worker receives: lines 198-204 and 219-222 -/
  | recv (worker : Nat)
  /-- the batch is full or the deadline has passed: lines 213-217 and 231-234 -/
  | stop (worker : Nat)
  /-- the batch has been processed: lines 243-245 -/
  | finish (worker : Nat)

/-- The number of texts of a batch: lines 208 and 220. -/
def textCount (items : List (Item T)) : Nat := (items.map fun i => i.texts.length).sum

/-- A worker ends.  With the last one the receiver is dropped, and all that is in the channel. -/
def leave (s : State T E) (worker : Nat) (items : List (Item T)) : State T E :=
  let workers := s.workers.set worker .gone
  let lost := if workers.any Worker.alive then [] else s.queue
  { s with workers := workers, queue := if workers.any Worker.alive then s.queue else [],
           answers := s.answers ++ (items ++ lost).map fun i => (i, .dropped) }

/-- One step; `none` when the event cannot happen.  A request that is refused changes nothing. -/
def step (c : Setup T E) (s : State T E) : Event T → Option (State T E)
  | .request item =>
    if s.workers.any Worker.alive ∧ s.queue.length < c.capacity then
      some { s with queue := s.queue ++ [item], accepted := s.accepted ++ [item] }
    else some s
  | .start w ok =>
    match s.workers[w]? with
    | some .starting => if ok then some { s with workers := s.workers.set w .waiting } else some (leave s w [])
    | _ => none
  | .acquire w =>
    match s.workers[w]?, s.lock with
    | some .waiting, none => some { s with workers := s.workers.set w (.collecting []), lock := some w }
    | _, _ => none
  | .recv w =>
    match s.workers[w]?, s.queue with
    | some (.collecting items), item :: rest =>
      if items = [] ∨ textCount items < c.maxTexts then
        some { s with queue := rest, workers := s.workers.set w (.collecting (items ++ [item])) }
      else none
    | _, _ => none
  | .stop w =>
    match s.workers[w]? with
    | some (.collecting (i :: items)) => some { s with workers := s.workers.set w (.working (i :: items)), lock := none }
    | _ => none
  | .finish w =>
    match s.workers[w]? with
    | some (.working items) =>
      match processBatch c w items with
      | .ok answers => some { s with workers := s.workers.set w .waiting, answers := s.answers ++ answers }
      | .error _ => some (leave s w items)
    | _ => none

/-- A schedule. -/
def run (c : Setup T E) : State T E → List (Event T) → Option (State T E)
  | s, [] => some s
  | s, e :: es => (step c s e).bind fun s' => run c s' es

end NextPlaid.EncodePool
