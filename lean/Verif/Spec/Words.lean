import Verif.Model.Words
import Verif.Spec.Store

/-!
Specification for the words of metadata values.
-/

namespace NextPlaid.Spec
open NextPlaid NextPlaid.Db NextPlaid.Words
open NextPlaid.JsonText (J)

variable {R : Type}

mutual

/-- The words of a value in the order of its text: those of its texts, its numbers and its Booleans and, if `all`, those of the keys of
its objects and the word `null` for a null. -/
def valueWords (A : Letters) (N : Numbers R) (all : Bool) : J R → List (List Char)
  | .null => if all then [['n', 'u', 'l', 'l']] else []
  | .bool true => [['t', 'r', 'u', 'e']]
  | .bool false => [['f', 'a', 'l', 's', 'e']]
  | .int i => words A (JsonText.showInt i)
  | .real r => words A ((N.real.shows r).getD ['n', 'u', 'l', 'l'])
  | .str s => words A s
  | .arr l => itemWords A N all l
  | .obj l => memberWords A N all l

/-- The words of the elements of an array. -/
def itemWords (A : Letters) (N : Numbers R) (all : Bool) : List (J R) → List (List Char)
  | [] => []
  | v :: l => valueWords A N all v ++ itemWords A N all l

/-- The words of the entries of an object. -/
def memberWords (A : Letters) (N : Numbers R) (all : Bool) : List (List Char × J R) → List (List Char)
  | [] => []
  | (k, v) :: l => (if all then words A k else []) ++ valueWords A N all v ++ memberWords A N all l

end

mutual

/-- No text in the value, key or not, has a control character (a line break, a tab, ...). -/
def OneLine : J R → Prop
  | .str s => ∀ c ∈ s, 32 ≤ c.toNat
  | .arr l => OneLineItems l
  | .obj l => OneLineMembers l
  | _ => True

/-- All elements. -/
def OneLineItems : List (J R) → Prop
  | [] => True
  | v :: l => OneLine v ∧ OneLineItems l

/-- All entries. -/
def OneLineMembers : List (List Char × J R) → Prop
  | [] => True
  | (k, v) :: l => (∀ c ∈ k, 32 ≤ c.toNat) ∧ OneLine v ∧ OneLineMembers l

end

mutual

/-- Neither an object nor a null occurs in the value. -/
def NoKeys : J R → Prop
  | .null => False
  | .arr l => NoKeysItems l
  | .obj _ => False
  | _ => True

/-- All elements. -/
def NoKeysItems : List (J R) → Prop
  | [] => True
  | v :: l => NoKeys v ∧ NoKeysItems l

end

/-- An array or an object. -/
def Tree : J R → Prop
  | .arr _ => True
  | .obj _ => True
  | _ => False

/-- What is used of SQLite's numbers: the text of an array or object is not a number, integers are printed in decimal, and an integer of
at most 53 bits survives as a floating point number. -/
structure LawfulNumbers (N : Numbers R) : Prop where
  noNumber : ∀ s, N.lite.parse ('[' :: s) = none ∧ N.lite.parse ('{' :: s) = none
  decimal : ∀ i, N.lite.showInt i = JsonText.showInt i
  exact : ∀ i, -2 ^ 53 ≤ i → i ≤ 2 ^ 53 → N.lite.finite (N.lite.ofInt i) = true ∧ N.display (N.lite.ofInt i) = JsonText.showInt i

/-- Values that are found by the same words whatever column they were stored in: null, integers of at most 53 bits, floating point numbers
with a fraction that SQLite, Rust and serde_json print with the same digits, texts that are not numbers, arrays without objects, nulls and
control characters. -/
def Steady (A : Letters) (N : Numbers R) : J R → Prop
  | .null => True
  | .bool _ => False
  | .int i => -2 ^ 53 ≤ i ∧ i ≤ 2 ^ 53
  | .real r => N.lite.finite r = true ∧ N.lite.asInt r = none ∧ ∃ t, N.real.shows r = some t ∧ words A (N.display r) = words A t ∧
      words A (N.lite.showReal r) = words A t
  | .str s => N.lite.parse s = none
  | .arr l => NoKeysItems l ∧ OneLineItems l
  | .obj _ => False

/-- A metadata row of steady values, every key once. -/
def SteadyRow (A : Letters) (N : Numbers R) (it : Item (sql N)) : Prop :=
  ((it.getD []).map (·.1)).Nodup ∧ ∀ p ∈ it.getD [], Steady A N p.2

end NextPlaid.Spec
