import Verif.Model.JsonText

/-!
Model of the trace of a search, /repo/colgrep/src/index/mod.rs:4299-4382: with `COLGREP_TRACE` set, each stage of a search
writes one line to the standard error, the text of which is put together by hand.
-/

namespace NextPlaid.Trace

/-- A score as it is printed: a finite one is rounded to millionths by `{:.6}`, which keeps the sign of a zero.  Simplified: the
score of the program is an `f32`; what is kept is its sign and the rounded number of millionths. -/
inductive Shown where
  | finite (neg : Bool) (millionths : Nat)
  | inf (neg : Bool)
  | nan
  deriving DecidableEq

/-- Six decimal digits. -/
def six (m : Nat) : List Char :=
  [Nat.digitChar (m / 100000 % 10), Nat.digitChar (m / 10000 % 10), Nat.digitChar (m / 1000 % 10), Nat.digitChar (m / 100 % 10),
    Nat.digitChar (m / 10 % 10), Nat.digitChar (m % 10)]

/-- A score printed with `{:.6}` (mod.rs:4330, 4355). -/
def Shown.text : Shown → List Char
  | .finite neg m => (if neg then ['-'] else []) ++ Nat.toDigits 10 (m / 1000000) ++ '.' :: six (m % 1000000)
  | .inf neg => (if neg then ['-'] else []) ++ ['i', 'n', 'f']
  | .nan => ['N', 'a', 'N']

/-- One character of a string (mod.rs:4370-4380). -/
def escapeChar (c : Char) : List Char :=
  if c = '"' then ['\\', '"']
  else if c = '\\' then ['\\', '\\']
  else if c = '\n' then ['\\', 'n']
  else if c = '\r' then ['\\', 'r']
  else if c = '\t' then ['\\', 't']
  else if c.toNat < 0x20 then ['\\', 'u', '0', '0', Nat.digitChar (c.toNat / 16), Nat.digitChar (c.toNat % 16)]
  else [c]

/-- `json_escape` (mod.rs:4368-4382). -/
def jsonEscape (s : List Char) : List Char := '"' :: (s.flatMap escapeChar ++ ['"'])

/-- The loops over the elements: a comma before each but the first (mod.rs:4318-4331, 4349-4356). -/
def listed : Nat → List (List Char) → List Char
  | _, [] => []
  | i, t :: l => (if i > 0 then [','] else []) ++ t ++ listed (i + 1) l

/-- `trace_enabled` (mod.rs:4361-4366); none: the variable is not set, or is not Unicode. -/
def enabled (var : Option String) : Bool := var == some "1" || var == some "true" || var == some "TRUE"

/-- The text built by `trace_log` (mod.rs:4311-4332). -/
def idsText (query stage : List Char) (ids : List Int) (scores : List Shown) (limit : Nat) : List Char :=
  let n := min (min ids.length scores.length) limit
  "{\"stage\":\"".toList ++ stage ++ "\",\"query\":".toList ++ jsonEscape query ++ ",\"ids\":[".toList ++
    listed 0 ((ids.take n).map JsonText.showInt) ++ "],\"scores\":[".toList ++ listed 0 ((scores.take n).map Shown.text) ++ "]}".toList

/-- One element of the results (mod.rs:4353-4355). -/
def resultText (r : List Char × Shown) : List Char :=
  "{\"file\":".toList ++ jsonEscape r.1 ++ ",\"score\":".toList ++ r.2.text ++ "}".toList

/-- The text built by `trace_log_results` (mod.rs:4342-4357).  A result is its file, as `to_string_lossy` gives it, and its
score. -/
def resultsText (query stage : List Char) (results : List (List Char × Shown)) (limit : Nat) : List Char :=
  let n := min results.length limit
  "{\"stage\":\"".toList ++ stage ++ "\",\"query\":".toList ++ jsonEscape query ++ ",\"results\":[".toList ++
    listed 0 ((results.take n).map resultText) ++ "]}".toList

/-- `eprintln!("__COLGREP_TRACE__ {}", s)` (mod.rs:4333, 4358): what is added to the standard error. -/
def line (s : List Char) : List Char := "__COLGREP_TRACE__ ".toList ++ s ++ ['\n']

/-- A call of one of the two functions. -/
inductive Call where
  | ids (query stage : List Char) (ids : List Int) (scores : List Shown) (limit : Nat)
  | results (query stage : List Char) (results : List (List Char × Shown)) (limit : Nat)

/-- The text of a call. -/
def Call.text : Call → List Char
  | .ids q s l sc n => idsText q s l sc n
  | .results q s l n => resultsText q s l n

/-- What a call adds to the standard error: `trace_log` (mod.rs:4307-4334), `trace_log_results` (mod.rs:4338-4359). -/
def emit (var : Option String) (c : Call) : List Char := if enabled var then line c.text else []

/-- The stages of `trace_log` (mod.rs:4122, 4176, 4195). -/
def idStages : List String := ["semantic", "bm25", "fused"]

/-- The stages of `trace_log_results` (mod.rs:4234-4289). -/
def resultStages : List String :=
  ["after_path_penalty", "after_path_stem_boost", "after_definition_boost", "after_coherence_boost", "final"]

end NextPlaid.Trace
