import Mathlib.Order.Basic

/-!
Model of Ctrl+C while colgrep indexes: /repo/colgrep/src/signal.rs and the threads of `run_chunk_pipeline`, /repo/colgrep/src/index/mod.rs:489-985, with
what `Model/Pipeline` leaves out: the flag and the counter of critical sections, sends to a thread that has ended, the order in which threads are joined,
and the end of the process.

What a stage computes is dropped (`C57` is about that): a message is the list of the units it is about.  An indexing thread of a new index is one with its
k-means and coding threads.  The two loads of `is_interrupted_outside_critical` are one step.
-/

namespace NextPlaid.Interrupt

variable {α : Type}

/-- What the stages are: tokenize and pool; encode; index; metadata. -/
inductive Kind where
  | plain
  | encode
  | write
  | store
deriving DecidableEq, Repr

/-- Where a thread is.  `busy`: the encoder has `left` batches of a message to go; `hold`: it is in `send`, and `guard` says whether inside a critical
section; `writing`: inside `write_index_from_encoded_chunks` or `update_append`, in a critical section; `ended`: it has returned, `ok` or with an error or
a panic. -/
inductive Phase (α : Type) where
  | idle
  | busy (m : List α) (left : Nat)
  | hold (m : List α) (guard : Bool)
  | writing
  | ended (ok : Bool)
deriving DecidableEq, Repr

/-- A thread with the channel it receives from; `pend`: the units whose embeddings the index thread has taken and not yet written. -/
structure Cell (α : Type) where
  kind : Kind
  cap : Nat
  queue : List (List α) := []
  pend : List α := []
  phase : Phase α := .idle
deriving DecidableEq, Repr

def Cell.isEnded (c : Cell α) : Bool :=
  match c.phase with
  | .ended _ => true
  | _ => false

/-- `INTERRUPTED` and `CRITICAL_SECTION_DEPTH` (signal.rs:13-19), what has been written to the index, and the rows of the database. -/
structure Shared (α : Type) where
  flag : Bool := false
  depth : Nat := 0
  docs : List α := []
  rows : List α := []
deriving DecidableEq, Repr

/-- `is_interrupted_outside_critical`: /repo/colgrep/src/signal.rs:30-36. -/
def Shared.stop (g : Shared α) : Bool := if g.depth > 0 then false else g.flag

/-- `enter_critical_section`: /repo/colgrep/src/signal.rs:48-50. -/
def Shared.enter (g : Shared α) : Shared α := { g with depth := g.depth + 1 }

/-- `exit_critical_section`: /repo/colgrep/src/signal.rs:55-57; `guard` says whether there is a guard to be dropped. -/
def Shared.leave (g : Shared α) (guard : Bool) : Shared α := if guard then { g with depth := g.depth - 1 } else g

/-- `limit` is `UPDATE_FLUSH_DOC_LIMIT`, `create` says that there is no index yet, `batches` gives the number of forward passes of a message. -/
structure Setup (α : Type) where
  create : Bool
  limit : Nat
  batches : List α → Nat

/-- What a thread does next, other than in `send`; `none` if it waits.  `up` says that its sender is gone.
/repo/colgrep/src/index/mod.rs:489-525 (encode), 527-550 and 555-578 (tokenize, pool), 588-735 and 740-770 (index), 821-868 (metadata). -/
def alone (p : Setup α) (up : Bool) (g : Shared α) (c : Cell α) : Option (Shared α × Cell α) :=
  match c.phase with
  | .ended _ => none
  | .hold _ _ => none
  | .busy m 0 => some (g, { c with phase := .hold m false })
  | .busy m (n + 1) => some (g, { c with phase := if g.stop then .ended true else .busy m n })
  | .writing =>
    if p.create then some ({ g with docs := g.docs ++ c.pend }.leave true, { c with phase := .ended true })
    else some ({ g with docs := g.docs ++ c.pend }, { c with phase := .hold c.pend true, pend := [] })
  | .idle =>
    match c.queue with
    | m :: q =>
      match c.kind with
      | .plain => some (g, { c with queue := q, phase := .hold m false })
      | .encode => some (g, { c with queue := q, phase := if g.stop then .ended true else .busy m (p.batches m) })
      | .write =>
        if p.create then some (g, { c with queue := q, pend := c.pend ++ m, phase := .hold m false })
        else if c.pend ++ m ≠ [] ∧ p.limit ≤ (c.pend ++ m).length then some (g.enter, { c with queue := q, pend := c.pend ++ m, phase := .writing })
        else some (g, { c with queue := q, pend := c.pend ++ m })
      | .store => some ({ g with rows := g.rows ++ m }, { c with queue := q })
    | [] =>
      if up then
        if c.kind = .write ∧ c.pend ≠ [] then some (g.enter, { c with phase := .writing })
        else some (g, { c with phase := .ended true })
      else none

/-- What the `i`-th thread does next.  `send` fails if the receiving thread is gone, and waits if the channel is full. -/
def stepAt (p : Setup α) (up : Bool) (g : Shared α) : Nat → List (Cell α) → Option (Shared α × List (Cell α))
  | _, [] => none
  | 0, c :: cs =>
    match c.phase with
    | .hold m gd =>
      match cs with
      | [] => none
      | d :: ds =>
        if d.isEnded then some (g.leave gd, { c with phase := .ended false } :: d :: ds)
        else if d.queue.length < d.cap then some (g.leave gd, { c with phase := .idle } :: { d with queue := d.queue ++ [m] } :: ds)
        else none
    | _ => (alone p up g c).map fun r => (r.1, r.2 :: cs)
  | i + 1, c :: cs => (stepAt p c.isEnded g i cs).map fun r => (r.1, c :: r.2)

/-- The `i`-th thread fails: an error of the tokenizer, the model, the disk or the database, or a panic, at any point.  Guards are dropped.  An error of the
model after an interruption ends the encoder without an error: mod.rs:511. -/
def failAt (g : Shared α) : Nat → List (Cell α) → Option (Shared α × List (Cell α))
  | _, [] => none
  | 0, c :: cs =>
    match c.phase with
    | .ended _ => none
    | .busy _ _ => some (g, { c with phase := .ended g.flag } :: cs)
    | .hold _ gd => some (g.leave gd, { c with phase := .ended false } :: cs)
    | .writing => some (g.leave true, { c with phase := .ended false } :: cs)
    | .idle => some (g, { c with phase := .ended false } :: cs)
  | i + 1, c :: cs => (failAt g i cs).map fun r => (r.1, c :: r.2)

/-- The main thread: at the head of its loop, in `send`, joining the threads from the `i`-th on, or returned: with `was_interrupted`, or an error. -/
inductive Main (α : Type) where
  | top
  | offer (m : List α)
  | join (i : Nat)
  | ret (result : Option Bool)
deriving DecidableEq, Repr

/-- The channel of the main thread is closed. -/
def Main.closed : Main α → Bool
  | .top => false
  | .offer _ => false
  | _ => true

structure State (α : Type) where
  shared : Shared α := {}
  cells : List (Cell α)
  todo : List (List α)
  main : Main α := .top
  was : Bool := false
  exited : Bool := false
deriving DecidableEq, Repr

/-- `run_chunk_pipeline`, the main thread: /repo/colgrep/src/index/mod.rs:937-974. -/
def mainStep (s : State α) : Option (State α) :=
  match s.main with
  | .top =>
    match s.todo with
    | [] => some { s with main := .join 0 }
    | m :: rest =>
      if s.shared.stop then some { s with main := .join 0, was := true }
      else some { s with main := .offer m, todo := rest }
  | .offer m =>
    match s.cells with
    | [] => none
    | c :: cs =>
      if c.isEnded then some { s with main := .ret none }
      else if c.queue.length < c.cap then some { s with cells := { c with queue := c.queue ++ [m] } :: cs, main := .top }
      else none
  | .join i =>
    match s.cells[i]? with
    | none => some { s with main := .ret (some s.was) }
    | some c =>
      match c.phase with
      | .ended true => some { s with main := .join (i + 1) }
      | .ended false => some { s with main := .ret none }
      | _ => none
  | .ret _ => none

/-- What can happen: Ctrl+C, a step of the main thread or of the `i`-th other one, a failure in it, or the end of the process, after an error has been
returned to `main`. -/
inductive Act where
  | signal
  | main
  | cell (i : Nat)
  | fail (i : Nat)
  | exit
deriving DecidableEq, Repr

/-- One step.  The handler (/repo/colgrep/src/signal.rs:86-104) only sets the flag.  When the process ends, so do all its threads, wherever they are. -/
def step (p : Setup α) (s : State α) : Act → Option (State α)
  | a =>
    if s.exited then none
    else
      match a with
      | .signal => some { s with shared := { s.shared with flag := true } }
      | .main => mainStep s
      | .cell i => (stepAt p s.main.closed s.shared i s.cells).map fun r => { s with shared := r.1, cells := r.2 }
      | .fail i => (failAt s.shared i s.cells).map fun r => { s with shared := r.1, cells := r.2 }
      | .exit =>
        match s.main with
        | .ret none => some { s with exited := true }
        | _ => none

/-- The beginning of `run_chunk_pipeline`: /repo/colgrep/src/index/mod.rs:893-936, with the capacities of lines 217-261. -/
def start (chunks : List (List α)) : State α :=
  { cells := [⟨.plain, 2, [], [], .idle⟩, ⟨.encode, 2, [], [], .idle⟩, ⟨.plain, 2, [], [], .idle⟩, ⟨.write, 4, [], [], .idle⟩, ⟨.store, 8, [], [], .idle⟩],
    todo := chunks }

/-- The states that a list of actions leads to. -/
inductive Run (p : Setup α) : List Act → State α → State α → Prop
  | nil {s : State α} : Run p [] s s
  | cons {a : Act} {as : List Act} {s s' s'' : State α} (h : step p s a = some s') (hr : Run p as s' s'') : Run p (a :: as) s s''

end NextPlaid.Interrupt
