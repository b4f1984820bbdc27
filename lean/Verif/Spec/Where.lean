import Verif.Model.Where
import Verif.Spec.Db

/-!
What a filter condition means: SQL's three-valued truth of a condition of the documented grammar at a row of the
listing. A row is selected when the condition is true there, not when it is false or unknown. Only the type
`Engine` of the primitive operations on values is taken from the model.
-/

namespace NextPlaid.Spec
open NextPlaid NextPlaid.Db NextPlaid.Where

variable {S : Sql}

/-- What a regular expression matches; `none` for a text that is not a regular expression. -/
abbrev Compile := List Char → Option (List Char → Bool)

/-- `x REGEXP p`: whether the text matches the pattern; unknown when one of them is not text. -/
def regexpTruth (ops : Engine S) (compile : Compile) (x p : S.V) : Option Bool :=
  match ops.text x, (ops.text p).bind compile with
  | some t, some hit => some (hit t)
  | _, _ => none

/-- Not, and, or of SQL; `none` is unknown. -/
def not3 (x : Option Bool) : Option Bool := x.map not

def and3 (x y : Option Bool) : Option Bool :=
  if x = some false ∨ y = some false then some false else if x = some true ∧ y = some true then some true else none

def or3 (x y : Option Bool) : Option Bool :=
  if x = some true ∨ y = some true then some true else if x = some false ∧ y = some false then some false else none

/-- How many placeholders a test has. -/
def Test.width : Test → Nat
  | .compare .. => 1
  | .like .. => 1
  | .regexp .. => 1
  | .isNull .. => 0
  | .between .. => 2
  | .isIn _ _ more => more + 1

def Cond.width : Cond → Nat
  | .test t => t.width
  | .neg c => c.width
  | .conj a b => a.width + b.width
  | .disj a b => a.width + b.width

/-- The value of the placeholder number `i`. -/
def param (ps : List S.V) (i : Nat) : S.V := ps.getD i S.null

def negate3 (neg : Bool) (x : Option Bool) : Option Bool := if neg then not3 x else x

/-- Truth of a test; `at'` gives the columns and `ps` the values of the test's own placeholders. -/
def Test.truth (ops : Engine S) (rx : S.V → S.V → Option Bool) (at' : List Char → S.V) (ps : List S.V) : Test → Option Bool
  | .compare n op => ops.compare n op (at' n) (param ps 0)
  | .like neg n => negate3 neg (ops.like (at' n) (param ps 0))
  | .regexp neg n => negate3 neg (rx (at' n) (param ps 0))
  | .isNull neg n => negate3 neg (some (S.isNull (at' n)))
  | .between neg n => negate3 neg
      (and3 (ops.compare n .ge (at' n) (param ps 0)) (ops.compare n .le (at' n) (param ps 1)))
  | .isIn neg n more => negate3 neg
      (((ps.take (more + 1)).map fun p => ops.compare n .eq (at' n) p).foldr or3 (some false))

/-- Truth of a condition; placeholders are filled from left to right. -/
def Cond.truth (ops : Engine S) (rx : S.V → S.V → Option Bool) (at' : List Char → S.V) : Cond → List S.V → Option Bool
  | .test t, ps => t.truth ops rx at' ps
  | .neg c, ps => not3 (c.truth ops rx at' ps)
  | .conj a b, ps => and3 (a.truth ops rx at' ps) (b.truth ops rx at' (ps.drop a.width))
  | .disj a b, ps => or3 (a.truth ops rx at' ps) (b.truth ops rx at' (ps.drop a.width))

/-- The columns tested with `REGEXP`. -/
def Cond.regexps : Cond → List (List Char)
  | .test (.regexp _ n) => [n]
  | .test _ => []
  | .neg c => c.regexps
  | .conj a b => a.regexps ++ b.regexps
  | .disj a b => a.regexps ++ b.regexps

/-- The values given for the patterns of the `REGEXP` tests. -/
def Cond.patterns : Cond → List S.V → List S.V
  | .test (.regexp _ _), ps => [param ps 0]
  | .test _, _ => []
  | .neg c, ps => c.patterns ps
  | .conj a b, ps => a.patterns ps ++ b.patterns (ps.drop a.width)
  | .disj a b, ps => a.patterns ps ++ b.patterns (ps.drop a.width)

/-- The two lists of values differ only in patterns, and those are text in both. -/
def Cond.SameButPatterns (ops : Engine S) : Cond → List S.V → List S.V → Prop
  | .test (.regexp _ _), ps, qs => (ops.text (param ps 0)).isSome ∧ (ops.text (param qs 0)).isSome
  | .test t, ps, qs => ps.take t.width = qs.take t.width
  | .neg c, ps, qs => c.SameButPatterns ops ps qs
  | .conj a b, ps, qs => a.SameButPatterns ops ps qs ∧ b.SameButPatterns ops (ps.drop a.width) (qs.drop a.width)
  | .disj a b, ps, qs => a.SameButPatterns ops ps qs ∧ b.SameButPatterns ops (ps.drop a.width) (qs.drop a.width)

/-- Two names are the same column for SQL, which ignores the case of ASCII letters. -/
def SameColumn (a b : List Char) : Prop := a.map Char.toLower = b.map Char.toLower

instance (a b : List Char) : Decidable (SameColumn a b) := inferInstanceAs (Decidable (_ = _))

/-- The value of a column in a row of the listing, the id included. -/
def _root_.NextPlaid.Db.OutRow.at (ops : Engine S) (r : OutRow S) (n : List Char) : S.V :=
  if SameColumn "_subset_".toList n then ops.int r.subset
  else ((r.cols.find? fun p => decide (SameColumn p.1.toList n)).map (·.2)).getD S.null

/-- The ids of the rows where the condition is true. -/
def trueAt (ops : Engine S) (rx : S.V → S.V → Option Bool) (c : Cond) (ps : List S.V) (all : List (OutRow S)) : List Int :=
  (all.filter fun r => decide (c.truth ops rx (r.at ops) ps = some true)).map (·.subset)

/-- The answer is exactly these ids, in some order. -/
def Answers (r : Res (List Int)) (ids : List Int) : Prop := ∃ l, r = .ok l ∧ l.Perm ids

end NextPlaid.Spec
