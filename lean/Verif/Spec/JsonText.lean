import Verif.Model.JsonText

/-!
Specification for JSON files: which values can be written and read back.
-/

namespace NextPlaid.Spec
open NextPlaid.JsonText

variable {R : Type}

/-- Decimal digits, at least one. -/
def Digits (ds : List Char) : Prop := ds ≠ [] ∧ ∀ c ∈ ds, c.isDigit = true

/-- The text of a number with a fraction, an exponent or both. -/
def Fractional (t : List Char) : Prop :=
  ∃ sign ds fs es, t = sign ++ ds ++ fs ++ es ∧ (sign = [] ∨ sign = ['-']) ∧ Digits ds ∧ (ds = ['0'] ∨ ds.head? ≠ some '0') ∧
    (fs = [] ∨ ∃ f, fs = '.' :: f ∧ Digits f) ∧
    (es = [] ∨ ∃ s e, es = 'e' :: (s ++ e) ∧ (s = [] ∨ s = ['-'] ∨ s = ['+']) ∧ Digits e) ∧ (fs ≠ [] ∨ es ≠ [])

/-- What is used of the printing of floating point numbers: a number that is printed is printed with a fraction or an
exponent, and the text is read as the same number. -/
structure LawfulReals (F : Reals R) : Prop where
  shape : ∀ r t, F.shows r = some t → Fractional t
  same : ∀ r t, F.shows r = some t → F.reads t = some r

mutual

/-- The number of containers within each other. -/
def depth : J R → Nat
  | .arr l => depthItems l + 1
  | .obj l => depthMembers l + 1
  | _ => 0

/-- The deepest element. -/
def depthItems : List (J R) → Nat
  | [] => 0
  | v :: l => max (depth v) (depthItems l)

/-- The deepest entry. -/
def depthMembers : List (List Char × J R) → Nat
  | [] => 0
  | (_, v) :: l => max (depth v) (depthMembers l)

end

mutual

/-- All integers are in the range of `i64` or `u64`, all other numbers are finite. -/
def Writable (F : Reals R) : J R → Prop
  | .int i => -2 ^ 63 ≤ i ∧ i < 2 ^ 64
  | .real r => (F.shows r).isSome
  | .arr l => WritableItems F l
  | .obj l => WritableMembers F l
  | _ => True

/-- All elements are writable. -/
def WritableItems (F : Reals R) : List (J R) → Prop
  | [] => True
  | v :: l => Writable F v ∧ WritableItems F l

/-- All entries are writable. -/
def WritableMembers (F : Reals R) : List (List Char × J R) → Prop
  | [] => True
  | (_, v) :: l => Writable F v ∧ WritableMembers F l

end

/-- A container: an array or an object. -/
def Container : J R → Prop
  | .arr _ => True
  | .obj _ => True
  | _ => False

/-- What a file can hold when its writing was cut short: some of the text, but not all. -/
def Torn (text torn : List Char) : Prop := ∃ lost, lost ≠ [] ∧ text = torn ++ lost

end NextPlaid.Spec
