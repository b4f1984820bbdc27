import Verif.Model.Outliers
import Mathlib.Algebra.Order.Ring.Defs
import Mathlib.Algebra.Field.Basic
import Mathlib.Algebra.BigOperators.Group.List.Basic
import Mathlib.Order.WithBot

/-!
Specification of the search for outliers.
-/

namespace NextPlaid.Spec
open NextPlaid.Outliers

/-- The inner product, accumulated left to right. -/
def dotSeq {R D : Type} (A : Arith R D) (x c : List R) (dim : Nat) : R :=
  (List.range dim).foldl (fun a t => A.add a (A.mul (x.getD t A.zero) (c.getD t A.zero))) A.zero

/-- The unblocked decision for one token: smallest distance over the centroids in their order, checked again
in higher precision if it is near the threshold, then compared with the threshold. -/
def isFar {R D : Type} (A : Arith R D) (dim : Nat) (cents : List (List R)) (x : List R) : Bool :=
  let m := cents.foldl (fun m c => A.fmin m (A.dist (sqNorm A x) (sqNorm A c) (dotSeq A x c dim))) A.inf
  A.gt (if A.near m then cents.foldl (fun m c => A.fmin m (A.precise x c)) A.inf else m)

/-- The squared Euclidean distance. -/
def sqDist {K : Type} [Ring K] (x c : List K) : K := ((List.zip x c).map fun p => (p.1 - p.2) * (p.1 - p.2)).sum

/-- Exact arithmetic over an ordered field, with any test for "near". -/
def exactArith {K : Type} [Ring K] [LinearOrder K] (thr : K) (near : WithTop K → Bool) : Arith K (WithTop K) where
  zero := 0
  add := (· + ·)
  mul := (· * ·)
  dist n m d := ((n + m - 2 * d : K) : WithTop K)
  fmin := min
  inf := ⊤
  precise x c := (sqDist x c : K)
  near := near
  gt d := decide ((thr : WithTop K) < d)

end NextPlaid.Spec
