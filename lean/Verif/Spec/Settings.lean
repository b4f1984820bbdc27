import Verif.Model.Settings

/-!
Specification for the settings: the last command that mentions a setting decides it.
-/

namespace NextPlaid.Spec
open NextPlaid.Settings NextPlaid.JsonText

variable {R A V : Type}

/-- The value of a setting after commands, the newest first: `mention` says what a command makes of the setting (`none`: it
does not mention it; `some none`: it resets it). -/
def chosen (mention : A → Option (Option V)) (initial : V) (newestFirst : List A) : V :=
  match newestFirst.findSome? mention with
  | some (some v) => v
  | _ => initial

/-- Two options are given that exclude each other; such a command is refused as a whole. -/
def contradictory (a : Args R) : Bool :=
  [(a.fp32, a.int8), (a.defaultPrecision, a.fp32), (a.defaultPrecision, a.int8), (a.coreml.isSome, a.clearCoreml), (a.verbose, a.noVerbose),
    (a.relative, a.noRelative), (a.hybrid, a.noHybrid)].any fun p => p.1 && p.2

/-- What a command says about a numeric setting: 0 resets it. -/
def saysNumber (f : Args R → Option Nat) : Cmd R → Option (Option Nat)
  | .settings a => if contradictory a then none else (f a).map fun n => if n = 0 then none else some n
  | .setModel _ _ => none

/-- What a command says about a setting that is switched on and off by two options. -/
def saysSwitch (on off : Args R → Bool) : Cmd R → Option (Option Bool)
  | .settings a => if contradictory a then none else if on a then some (some true) else if off a then some (some false) else none
  | .setModel _ _ => none

/-- What a command says about the precision. -/
def saysPrecision : Cmd R → Option (Option Bool)
  | .settings a =>
    if contradictory a then none else if a.fp32 then some (some true) else if a.int8 then some (some false)
    else if a.defaultPrecision then some none else none
  | .setModel _ _ => none

/-- What a command says about the cache directory. -/
def saysCoreml : Cmd R → Option (Option (List Char))
  | .settings a => if contradictory a then none else if a.clearCoreml then some none else a.coreml.map some
  | .setModel _ _ => none

/-- What a command says about the balance: 0 resets it, and so does a number that is not finite; others are brought between 0 and 1. -/
def saysAlpha (F : Alphas R) : Cmd R → Option (Option R)
  | .settings a =>
    if contradictory a then none
    else a.alpha.map fun r => if F.isZero r ∨ (F.shows (F.clamp r)).isNone then none else some (F.clamp r)
  | .setModel _ _ => none

/-- What a command says about the model: one that cannot be loaded is not taken. -/
def saysModel : Cmd R → Option (Option (List Char))
  | .settings _ => none
  | .setModel m valid => if valid then some (some m) else none

/-- What a command says about one pattern of a list: removing wins over adding, adding over clearing. -/
def saysPattern (clear : Args R → Bool) (added removed : Args R → List (List Char)) (p : List Char) : Cmd R → Option (Option Bool)
  | .settings a =>
    if contradictory a then none else if p ∈ removed a then some (some false) else if p ∈ added a then some (some true)
    else if clear a then some (some false) else none
  | .setModel _ _ => none

/-- The numbers of a command fit in 64 bits, as they do in the program. -/
def FitsCmd : Cmd R → Prop
  | .settings a => ∀ o ∈ [a.k, a.n, a.pool, a.parallel, a.batch, a.depth], ∀ n ∈ o, n < 2 ^ 64
  | .setModel _ _ => True

end NextPlaid.Spec
