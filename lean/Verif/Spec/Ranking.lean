import Verif.Model.Ranking

/-! What the ranking signals are (C55). -/

namespace NextPlaid.Spec

open NextPlaid.Rank NextPlaid.Fusion

variable {K : Type} [Field K] [LinearOrder K] [IsStrictOrderedRing K] (r : Rounding K)

/-- The sum of a list of numbers, from the left, every addition rounded. -/
def roundedSum : List K → K
  | [] => 0
  | s :: ss => ss.foldl (fun a x => r.rnd (a + x)) s

/-- The sum of the scores of a file's candidates. -/
def fileTotal (hits : List (Hit K)) (file : List Char) : K :=
  roundedSum r ((hits.filter fun h => h.unit.file = file).map (·.score))

/-- The candidate in place `i` is the first one of the best of its file. -/
def FirstBest (hits : List (Hit K)) (i : Nat) (h : Hit K) : Prop :=
  hits[i]? = some h ∧ ∀ j x, hits[j]? = some x → x.unit.file = h.unit.file → x.score ≤ h.score ∧ (x.score = h.score → i ≤ j)

/-- `m` is the greatest of the values of a list. -/
def IsGreatest (l : List K) (m : K) : Prop := m ∈ l ∧ ∀ x ∈ l, x ≤ m

/-- The factors of the penalty for a path (with `/` as separator): one for each kind of file it is. -/
def factors (g : Signals K) (path : List Char) : List K :=
  (if g.isTest path then [g.strong] else []) ++ (if g.isCompat path then [g.strong] else []) ++
  (if g.isExample path then [g.strong] else []) ++ (if ".d.ts".toList <:+ path then [g.mild] else []) ++
  (if "/__init__.py".toList <:+ '/' :: path ∨ "/package-info.java".toList <:+ '/' :: path then [g.moderate] else [])

/-- The forms of a token that are taken to be the same: itself, without `_`, and without a final `s`. -/
def Form (g : Signals K) (t v : List Char) : Prop :=
  v = t ∨ g.pluralSnake = true ∧ (v = t.filter (· ≠ '_') ∨ v ≠ [] ∧ t = v ++ ['s'])

/-- Two tokens have a form in common. -/
def SameWord (g : Signals K) (q t : List Char) : Prop := ∃ v, Form g q v ∧ Form g t v

/-- A form of one token begins with a form, of three characters or more, of the other. -/
def SameBeginning (g : Signals K) (q t : List Char) : Prop :=
  ∃ v w, Form g q v ∧ Form g t w ∧ (3 ≤ v.length ∧ v <+: w ∨ 3 ≤ w.length ∧ w <+: v)

/-- The name of the file of a path: what follows the last `/`. -/
def IsFileName (path name : List Char) : Prop := '/' ∉ name ∧ (path = name ∨ ∃ dir, path = dir ++ '/' :: name)

/-- The stem of a name: what comes before the last `.`, unless that is nothing; all of it if there is no `.`. -/
def IsStem (name stem : List Char) : Prop :=
  (stem ≠ [] ∧ ∃ ext, '.' ∉ ext ∧ name = stem ++ '.' :: ext) ∨
  ((∀ s ext, s ≠ [] → name ≠ s ++ '.' :: ext) ∧ stem = name)

end NextPlaid.Spec
