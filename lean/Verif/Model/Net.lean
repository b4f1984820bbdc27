import Mathlib.Data.List.Basic

/-!
Model of threads in a row that are connected by bounded channels (`std::sync::mpsc::sync_channel`), as in
/repo/colgrep/src/index/mod.rs `run_chunk_pipeline` (lines 880-985).  A schedule is any sequence of steps.
-/

namespace NextPlaid.Net

/-- What a thread does: with each message it receives, and when the channel it receives from is closed.  Both may send messages. -/
structure Stage (S M : Type) where
  recv : S → M → S × List M
  close : S → S × List M

/-- A thread with the channel it receives from.  `hand`: what it still has to send before it receives again; `closed`: it has seen the
end of its channel. -/
structure Cell (S M : Type) where
  stage : Stage S M
  cap : Nat
  state : S
  queue : List M
  hand : List M
  closed : Bool

variable {S M : Type}

/-- One step of one thread. -/
inductive Step : List (Cell S M) → List (Cell S M) → Prop
  /-- `send` returns once the channel has room. -/
  | push {c d : Cell S M} {m : M} {h : List M} (cs : List (Cell S M)) (hc : c.hand = m :: h) (room : d.queue.length < d.cap) :
      Step (c :: d :: cs) ({ c with hand := h } :: { d with queue := d.queue ++ [m] } :: cs)
  /-- The last thread sends to nobody. -/
  | drop {c : Cell S M} {m : M} {h : List M} (hc : c.hand = m :: h) : Step [c] [{ c with hand := h }]
  /-- `recv` takes the first message. -/
  | recv {c : Cell S M} {m : M} {q : List M} (cs : List (Cell S M)) (ho : c.closed = false) (hh : c.hand = []) (hq : c.queue = m :: q) :
      Step (c :: cs) ({ c with state := (c.stage.recv c.state m).1, hand := (c.stage.recv c.state m).2, queue := q } :: cs)
  /-- `recv` fails when the channel is empty and its sender is gone. -/
  | close {c d : Cell S M} (cs : List (Cell S M)) (hc : c.closed = true) (hh : c.hand = []) (ho : d.closed = false) (hd : d.hand = [])
      (hq : d.queue = []) :
      Step (c :: d :: cs) (c :: { d with state := (d.stage.close d.state).1, hand := (d.stage.close d.state).2, closed := true } :: cs)
  | later {cs cs' : List (Cell S M)} (c : Cell S M) (h : Step cs cs') : Step (c :: cs) (c :: cs')

/-- A run of some number of steps. -/
inductive Run : Nat → List (Cell S M) → List (Cell S M) → Prop
  | refl (cs : List (Cell S M)) : Run 0 cs cs
  | step {n : Nat} {a b c : List (Cell S M)} (h : Run n a b) (s : Step b c) : Run (n + 1) a c

/-- A thread that has not begun. -/
def fresh (stage : Stage S M) (cap : Nat) (state : S) : Cell S M := ⟨stage, cap, state, [], [], false⟩

/-- The thread that sends the messages in the first place. -/
def source (state : S) (ms : List M) : Cell S M := ⟨⟨fun s _ => (s, []), fun s => (s, [])⟩, 0, state, [], ms, true⟩

/-- Nobody has anything to do. -/
def Finished (cs : List (Cell S M)) : Prop := ∀ c ∈ cs, c.closed = true ∧ c.queue = [] ∧ c.hand = []

/-- What a thread does with a whole list of messages: its last state, and all that it sends. -/
def feed (st : Stage S M) (s : S) : List M → S × List M
  | [] => st.close s
  | m :: ms => ((feed st (st.recv s m).1 ms).1, (st.recv s m).2 ++ (feed st (st.recv s m).1 ms).2)

end NextPlaid.Net
