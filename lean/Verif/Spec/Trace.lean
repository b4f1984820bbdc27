import Verif.Model.Trace
import Verif.Spec.JsonText

/-!
What the trace of a search must say.  A line is read with the reader of JSON of `Model/JsonText.lean`.
-/

namespace NextPlaid.Spec
open NextPlaid.JsonText NextPlaid.Trace

/-- The number written with six decimal places: its sign and its absolute value in millionths. -/
def millionths (t : List Char) : Option (Bool × Nat) :=
  let neg := t.head? == some '-'
  let u := if neg then t.tail else t
  match u.dropWhile Char.isDigit with
  | c :: f => if c = '.' ∧ f.length = 6 ∧ f.all Char.isDigit then some (neg, decimal (u.takeWhile Char.isDigit) * 1000000 + decimal f) else none
  | [] => none

/-- A reader of JSON whose numbers are read by `millionths`. -/
@[reducible] def sixPlaces : Reals (Bool × Nat) where
  shows r := some (Shown.text (.finite r.1 r.2))
  reads := millionths
  ofInt i := (decide (i < 0), i.natAbs * 1000000)

/-- The score is a number. -/
def IsNumber (s : Shown) : Prop := ∃ neg m, s = .finite neg m

/-- The number of a score. -/
def numberOf : Shown → J (Bool × Nat)
  | .finite neg m => .real (neg, m)
  | _ => .null

/-- A stage has a name without quotes, backslashes and control characters. -/
def PlainName (stage : List Char) : Prop := ∀ c ∈ stage, c ≠ '"' ∧ c ≠ '\\' ∧ 32 ≤ c.toNat

/-- The lines of a text that end with a line feed. -/
def linesOf : List Char → List Char → List (List Char)
  | _, [] => []
  | acc, c :: t => if c = '\n' then acc :: linesOf [] t else linesOf (acc ++ [c]) t

/-- What a reader of the standard error takes as records: the rest of each line that starts with the marker. -/
def records (err : List Char) : List (List Char) :=
  (linesOf [] err).filterMap fun l =>
    if l.take 18 = "__COLGREP_TRACE__ ".toList then some (l.drop 18) else none

/-- The name of the stage of a call. -/
def stageOf : Call → List Char
  | .ids _ s _ _ _ => s
  | .results _ s _ _ => s

/-- What a call is to say: the stage, the query and the first elements, at most the limit. -/
def meaning : Call → J (Bool × Nat)
  | .ids q s l sc limit =>
    .obj [("stage".toList, .str s), ("query".toList, .str q), ("ids".toList, .arr (((l.zip sc).take limit).map fun p => .int p.1)),
      ("scores".toList, .arr (((l.zip sc).take limit).map fun p => numberOf p.2))]
  | .results q s l limit =>
    .obj [("stage".toList, .str s), ("query".toList, .str q),
      ("results".toList, .arr ((l.take limit).map fun r => .obj [("file".toList, .str r.1), ("score".toList, numberOf r.2)]))]

/-- All scores that are shown are numbers, and ids are `i64`. -/
def Sayable : Call → Prop
  | .ids _ _ l sc limit => ∀ p ∈ (l.zip sc).take limit, (-2 ^ 63 ≤ p.1 ∧ p.1 < 2 ^ 63) ∧ IsNumber p.2
  | .results _ _ l limit => ∀ r ∈ l.take limit, IsNumber r.2

end NextPlaid.Spec
