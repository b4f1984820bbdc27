import Verif.Spec.Stderr

/-!
Model of `with_suppressed_stderr`, /repo/colgrep/src/stderr.rs:8-117, on unix.  Standard error is the terminal or /dev/null; the panic hook is the usual one,
which writes to standard error, or the one of a call, which writes to the buffer of the call.  A message is one string: its location and the backtrace are not
modelled.
-/

namespace NextPlaid.Stderr

/-- The parts of the process that all its threads share. -/
structure St where
  /-- descriptor 2 is the terminal (else /dev/null) -/
  terminal : Bool
  /-- the panic hook: `none` the usual one, `some i` that of call `i` -/
  hook : Option Nat
  /-- `captured` of the calls -/
  buffer : Nat → Option String
  /-- number of the next call -/
  next : Nat
  /-- what the terminal shows -/
  screen : List String

/-- What a call of `with_suppressed_stderr` keeps on its stack. -/
structure Guard where
  /-- `prev_hook` -/
  prevHook : Option Nat
  /-- `original_fd` of the guard; `none` if `SuppressStderr::new` returned `None` -/
  original : Option Bool
  /-- the buffer of the call -/
  slot : Nat

/-- Writing to descriptor 2. -/
def write (m : String) (s : St) : St := if s.terminal then { s with screen := s.screen ++ [m] } else s

/-- What a panic does before it unwinds: it runs the hook. /repo/colgrep/src/stderr.rs:89-99. -/
def runHook (m : String) (s : St) : St :=
  match s.hook with
  | none => write m s
  | some i => { s with buffer := fun j => if j = i then some m else s.buffer j }

/-- From the entry of `with_suppressed_stderr` to the call of the closure: /repo/colgrep/src/stderr.rs:85-101, with `SuppressStderr::new`,
/repo/colgrep/src/stderr.rs:17-41. -/
def enter (ok : Bool) (s : St) : Guard × St :=
  ({ prevHook := s.hook, original := if ok then some s.terminal else none, slot := s.next },
   { s with
      hook := some s.next
      buffer := fun j => if j = s.next then none else s.buffer j
      next := s.next + 1
      terminal := if ok then false else s.terminal })

/-- `drop(guard)` and `set_hook(prev_hook)`: /repo/colgrep/src/stderr.rs:46-56, 103-106. -/
def leave (g : Guard) (s : St) : St :=
  { s with
    terminal := g.original.getD s.terminal
    hook := g.prevHook }

/-- From the end of the closure to the end of the call; whether the closure panicked: /repo/colgrep/src/stderr.rs:103-116.  `resume_unwind` does not run
the hook. -/
def finish (g : Guard) (panicked : Bool) (s : St) : St :=
  let s := leave g s
  if panicked then
    match s.buffer g.slot with
    | some m => write m { s with buffer := fun j => if j = g.slot then none else s.buffer j }
    | none => s
  else s

/-- A thread alone runs a program; whether it panicked. -/
def exec : Prog → St → St × Bool
  | .ret, s => (s, false)
  | .say m k, s => exec k (write m s)
  | .boom m, s => (runHook m s, true)
  | .attempt body k, s => exec k (exec body s).1
  | .quiet ok body k, s =>
    let e := enter ok s
    let r := exec body e.2
    let s' := finish e.1 r.2 r.1
    if r.2 then (s', true) else exec k s'

end NextPlaid.Stderr
