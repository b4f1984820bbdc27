import Verif.Model.Hierarchy

/-!
Model of the other linkage methods (single, complete, average, weighted), which are part of the public interface of the clustering:
/repo/next-plaid-onnx/src/hierarchy.rs:33-48, 90-111, 286-394.

Numbers are elements of an ordered field with a rounding after each operation, or infinite, or not numbers.  Simplified: no operation on finite
numbers overflows, and there is no negative infinity.  Arrays that the code indexes by clusters are functions.
-/

namespace NextPlaid.Linkage

open NextPlaid.Fusion NextPlaid.Hier

/-- A distance. -/
inductive D (K : Type) where
  | fin (x : K)
  | inf
  | nan
deriving DecidableEq

variable {K : Type} [Field K] [LinearOrder K]

/-- `<` of floating point numbers. -/
def D.lt : D K → D K → Bool
  | .fin x, .fin y => decide (x < y)
  | .fin _, .inf => true
  | _, _ => false

/-- `f64::min`: one that is not a number is passed over. -/
def D.min : D K → D K → D K
  | .nan, y => y
  | x, .nan => x
  | .inf, y => y
  | x, .inf => x
  | .fin x, .fin y => .fin (Min.min x y)

/-- `f64::max`. -/
def D.max : D K → D K → D K
  | .nan, y => y
  | x, .nan => x
  | .inf, _ => .inf
  | _, .inf => .inf
  | .fin x, .fin y => .fin (Max.max x y)

/-- A weighted mean with positive weights. -/
def D.blend (f : K → K → K) : D K → D K → D K
  | .nan, _ => .nan
  | _, .nan => .nan
  | .inf, _ => .inf
  | _, .inf => .inf
  | .fin x, .fin y => .fin (f x y)

/-- `LinkageMethod`, without Ward's: hierarchy.rs:50-63. -/
inductive Method where
  | single | complete | average | weighted
deriving DecidableEq

/-- `update_single`, `update_complete`, `update_average`, `update_weighted`: hierarchy.rs:372-394. -/
def update (r : Rounding K) (m : Method) (ni nj : Nat) (ik jk : D K) : D K :=
  match m with
  | .single => ik.min jk
  | .complete => ik.max jk
  | .average => D.blend (fun x y => r.rnd (r.rnd (r.rnd ((ni : K) * x) + r.rnd ((nj : K) * y)) / ((ni + nj : Nat) : K))) ik jk
  | .weighted => D.blend (fun x y => r.rnd (r.rnd (x + y) / 2)) ik jk

/-- The variables of `linkage_generic`: hierarchy.rs:291-315. -/
structure G (K : Type) where
  dist : Nat → Nat → D K
  size : Nat → Nat
  active : Nat → Bool
  next : Nat
  rows : List (Row (D K))

/-- The pairs of live clusters, in the order of the two loops: hierarchy.rs:322-329. -/
def pairs (s : G K) : List (Nat × Nat) :=
  ((List.range s.next).filter s.active).flatMap fun i =>
    ((List.range' (i + 1) (s.next - (i + 1))).filter s.active).map fun j => (i, j)

/-- The pair at the least distance, the first of them; (0, 0) if no distance is finite: hierarchy.rs:317-337. -/
def closest (s : G K) : D K × Nat × Nat :=
  (pairs s).foldl (fun best p => if (s.dist p.1 p.2).lt best.1 then (s.dist p.1 p.2, p.1, p.2) else best) (.inf, 0, 0)

/-- The live clusters when `i` and `j` are joined. -/
def liveAfter (s : G K) (i j k : Nat) : Bool := if k = s.next then true else if k = i ∨ k = j then false else s.active k

/-- The distances when `i` and `j` are joined: hierarchy.rs:353-365. -/
def distAfter (r : Rounding K) (m : Method) (s : G K) (i j : Nat) (x y : Nat) : D K :=
  let new := fun k => update r m (s.size i) (s.size j) (s.dist i k) (s.dist j k)
  if x = s.next ∧ y < s.next ∧ liveAfter s i j y then new y
  else if y = s.next ∧ x < s.next ∧ liveAfter s i j x then new x
  else s.dist x y

/-- One merge: hierarchy.rs:339-368. -/
def join (r : Rounding K) (m : Method) (s : G K) (d : D K) (i j : Nat) : G K where
  dist := distAfter r m s i j
  size k := if k = s.next then s.size i + s.size j else s.size k
  active := liveAfter s i j
  next := s.next + 1
  rows := s.rows ++ [⟨i, j, d, s.size i + s.size j⟩]

def step (r : Rounding K) (m : Method) (s : G K) : G K := join r m s (closest s).1 (closest s).2.1 (closest s).2.2

/-- The loop: hierarchy.rs:316-369. -/
def steps (r : Rounding K) (m : Method) : Nat → G K → G K
  | 0, s => s
  | k + 1, s => steps r m k (step r m s)

/-- The first state: hierarchy.rs:291-314. -/
def start (n : Nat) (ds : List (D K)) : G K where
  dist i j :=
    if i = j ∧ i < n then .fin 0
    else if i < n ∧ j < n then ds.getD (condensed n (min i j) (max i j)) .inf
    else .inf
  size _ := 1
  active k := decide (k < n)
  next := n
  rows := []

/-- `linkage` with a method other than Ward's: hierarchy.rs:90-111, 286-370. -/
def linkageBy (r : Rounding K) (m : Method) (n : Nat) (ds : List (D K)) : Res (List (Row (D K))) :=
  if n ≤ 1 then .ok []
  else if ds.length ≠ n * (n - 1) / 2 then .error .panic
  else .ok (steps r m (n - 1) (start n ds)).rows

/-- `squareform_to_condensed`: hierarchy.rs:33-48; for `n = 0` the code panics (in a release build it returns nothing). -/
def squareform {α : Type} (matrix : List α) (n : Nat) : Res (List α) :=
  if n = 0 then .error .panic
  else
    match ((List.range n).flatMap fun i => (List.range' (i + 1) (n - (i + 1))).map fun j => matrix[i * n + j]?).mapM id with
    | none => .error .panic
    | some l => .ok l

/-- `fcluster_distance`: hierarchy.rs:520-589, for rows of these methods. -/
def cutAt (fuel : Nat) (rows : List (Row (D K))) (n : Nat) (limit : K) : Option (Res (List Nat)) :=
  cut fuel rows n (rows.takeWhile fun x => x.distSq == .fin limit || x.distSq.lt (.fin limit)).length

end NextPlaid.Linkage
