import Verif.Model.Train
import Mathlib.Algebra.Order.Field.Basic

/-! What an index has learned from its documents (C70). -/

namespace NextPlaid.Spec

open NextPlaid.Fusion (Rounding)

section
variable {K : Type} [Field K] [LinearOrder K]

/-- `x` is the quantile of the values for the fraction `p`: put in order and numbered from 0 to `n - 1`, the values at both sides of
position `p (n - 1)` are interpolated. -/
def IsQuantile (values : List K) (p x : K) : Prop := ∃ (s : List K) (k : Nat) (f lo hi : K), s.Perm values ∧ s.Pairwise (· ≤ ·) ∧
  (k : K) + f = p * ((values.length - 1 : Nat) : K) ∧ 0 ≤ f ∧ f < 1 ∧ s[k]? = some lo ∧ (f = 0 ∨ s[k + 1]? = some hi) ∧ x = lo + f * (hi - lo)

/-- Rounding changes a number by at most the fraction `u` of it and the smallest number `tiny`. -/
def Accurate (r : Rounding K) (u tiny : K) : Prop := 0 ≤ u ∧ 0 ≤ tiny ∧ ∀ x, |r.rnd x - x| ≤ u * |x| + tiny

/-- The error of two products and a sum of numbers of at most `M`. -/
def blur (u tiny M : K) : K := (2 * u + u * u) * M + (3 + 2 * u) * tiny

/-- What the rows differ by from their centroids, coordinate by coordinate. -/
def differences (r : Rounding K) (centroid : List K → List K) (rows : List (List K)) : List K :=
  rows.flatMap fun row => (row.zip (centroid row)).map fun p => r.rnd (p.1 - p.2)

/-- The numbers of `n` documents, each once, in any order. -/
def Draw (order : List Nat) (n : Nat) : Prop := order.Perm (List.range n)

end

end NextPlaid.Spec
