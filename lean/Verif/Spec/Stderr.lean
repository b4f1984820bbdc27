/-!
What a program does of which `with_suppressed_stderr` runs parts, and which panic leaves it.  Independent of the model of the function.
-/

namespace NextPlaid.Stderr

/-- A program of one thread. -/
inductive Prog
  /-- returns -/
  | ret
  /-- writes to standard error and goes on -/
  | say (m : String) (k : Prog)
  /-- panics with a message -/
  | boom (m : String)
  /-- runs a part in which a panic is caught and dropped, and goes on -/
  | attempt (body k : Prog)
  /-- runs a part with standard error suppressed, and goes on if it returns.  `ok`: whether the descriptor can be duplicated and /dev/null opened. -/
  | quiet (ok : Bool) (body k : Prog)

/-- The message of the panic that leaves the program. -/
def Prog.escapes : Prog → Option String
  | .ret => none
  | .say _ k => k.escapes
  | .boom m => some m
  | .attempt _ k => k.escapes
  | .quiet _ body k => match body.escapes with
    | some m => some m
    | none => k.escapes

/-- No part is suppressed. -/
def Prog.flat : Prog → Bool
  | .ret => true
  | .say _ k => k.flat
  | .boom _ => true
  | .attempt body k => body.flat && k.flat
  | .quiet _ _ _ => false

/-- What a program without suppressed parts writes to standard error, the messages of its panics apart. -/
def Prog.said : Prog → List String
  | .ret => []
  | .say m k => m :: k.said
  | .boom _ => []
  | .attempt body k => body.said ++ k.said
  | .quiet _ _ k => k.said

end NextPlaid.Stderr
