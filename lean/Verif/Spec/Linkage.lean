import Verif.Model.Linkage
import Verif.Spec.Hierarchy

/-!
What the linkage methods mean, without the algorithm.  `e i j` is the distance of two observations.
-/

namespace NextPlaid.Spec

open NextPlaid.Hier (Row)
open NextPlaid.Linkage (D Method)

section
variable {K : Type} [LinearOrder K]

/-- The distance of the two nearest members. -/
def NearestPair (e : Nat → Nat → K) (A B : List Nat) (d : K) : Prop := (∃ a ∈ A, ∃ b ∈ B, d = e a b) ∧ ∀ a ∈ A, ∀ b ∈ B, d ≤ e a b

/-- The distance of the two members that are farthest from each other. -/
def FarthestPair (e : Nat → Nat → K) (A B : List Nat) (d : K) : Prop := (∃ a ∈ A, ∃ b ∈ B, d = e a b) ∧ ∀ a ∈ A, ∀ b ∈ B, e a b ≤ d

end

variable {K : Type} [Field K] [LinearOrder K]

/-- The weighted distance: that of observations, and for a cluster made of two, the mean of the distances of the two. -/
inductive WeightedDist (e : Nat → Nat → K) (n : Nat) (rows : List (Row (D K))) : Nat → Nat → K → Prop
  | one (i j : Nat) : i < n → j < n → WeightedDist e n rows i j (e i j)
  | made (t c : Nat) (row : Row (D K)) (x y : K) : rows[t]? = some row → c < n + t → WeightedDist e n rows row.a c x →
      WeightedDist e n rows row.b c y → WeightedDist e n rows (n + t) c ((x + y) / 2)
  | swap (c c' : Nat) (x : K) : WeightedDist e n rows c c' x → WeightedDist e n rows c' c x

/-- `d` is the distance of the clusters `c` and `c'`. -/
def ClusterDist (m : Method) (e : Nat → Nat → K) (n : Nat) (rows : List (Row (D K))) (c c' : Nat) (d : K) : Prop :=
  match m with
  | .single => NearestPair e (members rows n c) (members rows n c') d
  | .complete => FarthestPair e (members rows n c) (members rows n c') d
  | .average => d = total e (members rows n c) (members rows n c') / ((members rows n c).length * (members rows n c').length)
  | .weighted => WeightedDist e n rows c c' d

/-- Observations that can be reached from each other in steps that are not longer than `limit`. -/
inductive Reaches (e : Nat → Nat → K) (n : Nat) (limit : K) : Nat → Nat → Prop
  | here (i : Nat) : Reaches e n limit i i
  | there (i j k : Nat) : j < n → e i j ≤ limit → Reaches e n limit j k → Reaches e n limit i k

/-- The upper half of a symmetric matrix, row by row. -/
def upperHalf {α : Type} (f : Nat → Nat → α) (n : Nat) : List α :=
  (List.range n).flatMap fun i => (List.range' (i + 1) (n - (i + 1))).map (f i)

end NextPlaid.Spec
