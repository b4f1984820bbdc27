import Verif.Model.Index

/-!
Model of `find_outliers`, /repo/next-plaid/src/update.rs:425-606: the blocked search for the tokens that are far
from every centroid.

The arithmetic is a parameter (`Arith`), with no laws, so that every statement about the blocking holds for
floating point as well.  Matrices are lists of rows (the code works on flat slices); the blocks that the code
processes in parallel are processed in order (rayon's `collect` keeps the order).
-/

namespace NextPlaid.Outliers

/-- The arithmetic used.  `R`: coordinates; `D`: distances.  `dist n m d` is `n + m - 2.0 * d` (lines 566-567,
585); `precise` is the distance in `f64` of one row to one centroid (lines 457-463); `near` is the test whether
a distance is so close to the threshold that it is checked again (lines 596-598); `gt` is `> threshold_sq`. -/
structure Arith (R D : Type) where
  zero : R
  add : R → R → R
  mul : R → R → R
  dist : R → R → R → D
  fmin : D → D → D
  inf : D
  precise : List R → List R → D
  near : D → Bool
  gt : D → Bool

variable {R D : Type} (A : Arith R D)

/-- The loops of `squared_norm`: /repo/next-plaid/src/update.rs:425-447. -/
def sqLoop : List R → R → R → R → R → R
  | a :: b :: c :: d :: rest, s0, s1, s2, s3 =>
    sqLoop rest (A.add s0 (A.mul a a)) (A.add s1 (A.mul b b)) (A.add s2 (A.mul c c)) (A.add s3 (A.mul d d))
  | rest, s0, s1, s2, s3 =>
    rest.foldl (fun t x => A.add t (A.mul x x)) (A.add (A.add (A.add s0 s1) s2) s3)

/-- `squared_norm`: /repo/next-plaid/src/update.rs:424-447. -/
def sqNorm (row : List R) : R := sqLoop A row A.zero A.zero A.zero A.zero

/-- `min_distance_sq_precise`: /repo/next-plaid/src/update.rs:454-473. -/
def minPrecise (row : List R) (cents : List (List R)) : D :=
  cents.foldl (fun m c => A.fmin m (A.precise row c)) A.inf

/-- The body of the `while dim_idx < dim` loop of a tile: lines 548-560. -/
def dotsStep (rows tile : List (List R)) (dots : List (List R)) (t : Nat) : List (List R) :=
  List.zipWith (fun row acc =>
    List.zipWith (fun c a => A.add a (A.mul (row.getD t A.zero) (c.getD t A.zero))) tile acc) rows dots

/-- One tile of centroids: lines 542-573.  `norms` are the squared norms of the rows. -/
def tileStep (dim : Nat) (rows : List (List R)) (norms : List R) (tile : List (List R)) (mins : List D) : List D :=
  List.zipWith (fun m (p : R × List R) =>
      (List.zip (tile.map (sqNorm A)) p.2).foldl (fun m q => A.fmin m (A.dist p.1 q.1 q.2)) m)
    mins (List.zip norms
      ((List.range dim).foldl (dotsStep A rows tile) (List.replicate rows.length (List.replicate tile.length A.zero))))

/-- One of the remaining centroids: lines 575-590. -/
def tailStep (dim : Nat) (rows : List (List R)) (norms : List R) (c : List R) (mins : List D) : List D :=
  List.zipWith (fun m (p : R × List R) =>
      A.fmin m (A.dist p.1 (sqNorm A c)
        ((List.range dim).foldl (fun a t => A.add a (A.mul (p.2.getD t A.zero) (c.getD t A.zero))) A.zero)))
    mins (List.zip norms rows)

/-- The two `while` loops over the centroids: lines 541-590.  `fuel` bounds the number of tiles. -/
def centroidLoop (U dim : Nat) (rows : List (List R)) (norms : List R) : (fuel : Nat) → List (List R) → List D → List D
  | 0, _, mins => mins
  | fuel + 1, cents, mins =>
    if U ≤ cents.length then
      centroidLoop U dim rows norms fuel (cents.drop U) (tileStep A dim rows norms (cents.take U) mins)
    else cents.foldl (fun m c => tailStep A dim rows norms c m) mins

/-- One block of rows: lines 533-605. -/
def blockOutliers (T U dim : Nat) (cents : List (List R)) (rows : List (List R)) (block : Nat) : List Nat :=
  let norms := rows.map (sqNorm A)
  let mins := centroidLoop A U dim rows norms (cents.length + 1) cents (List.replicate rows.length A.inf)
  ((List.zip rows mins).zipIdx).filterMap fun p =>
    let final := if A.near p.1.2 then minPrecise A p.1.1 cents else p.1.2
    if A.gt final then some (block * T + p.2) else none

/-- `find_outliers`: /repo/next-plaid/src/update.rs:490-606.  `T` is `OUTLIER_EMBEDDING_TILE` (64), `U` is
`OUTLIER_CENTROID_TILE` (8). -/
def findOutliers (T U dim : Nat) (rows cents : List (List R)) : List Nat :=
  if rows.length = 0 ∨ cents.length = 0 then []
  else (List.range (Index.numChunksFor rows.length T)).flatMap fun b =>
    blockOutliers A T U dim cents (Index.chunkSlice rows T b) b

end NextPlaid.Outliers
