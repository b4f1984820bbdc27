import Verif.Model.Index
import Mathlib.Algebra.Order.Field.Basic

/-!
Model of result fusion and of filtered keyword search, /repo/next-plaid/src/text_search.rs.

Numbers: `f32` arithmetic is exact arithmetic in an ordered field `K` followed by a rounding `rnd`.
Overflow to infinity and NaN are outside this model; everything else (loss of precision, underflow to
zero) is covered by the choice of `rnd`.
-/

namespace NextPlaid.Fusion

/-- Rounding of a result to a representable number. -/
structure Rounding (K : Type) where
  rnd : K → K

section
variable {K : Type} [Field K] [LinearOrder K] [IsStrictOrderedRing K]

/-- What is used of IEEE rounding: it preserves order, leaves representable numbers alone, and 0 and 1
are representable. -/
structure Rounding.Lawful (r : Rounding K) : Prop where
  mono : ∀ a b, a ≤ b → r.rnd a ≤ r.rnd b
  idem : ∀ a, r.rnd (r.rnd a) = r.rnd a
  zero : r.rnd 0 = 0
  one : r.rnd 1 = 1

variable (r : Rounding K)

/-- `*scores.entry(id).or_default() += x`. -/
def bump (m : List (Int × K)) (id : Int) (x : K) : List (Int × K) :=
  if m.any (fun p => p.1 == id) then m.map fun p => if p.1 == id then (p.1, r.rnd (p.2 + x)) else p
  else m ++ [(id, r.rnd (0 + x))]

/-- `w / (RRF_K + rank as f32 + 1.0)`: /repo/next-plaid/src/text_search.rs:1011, 1014. -/
def rankScore (w : K) (rank : Nat) : K := r.rnd (w / r.rnd (r.rnd (60 + r.rnd (rank : K)) + 1))

/-- One of the two loops of `fuse_rrf`: /repo/next-plaid/src/text_search.rs:1010-1015. -/
def addRanks (w : K) (m : List (Int × K)) (rank : Nat) : List Int → List (Int × K)
  | [] => m
  | id :: ids => addRanks w (bump r m id (rankScore r w rank)) (rank + 1) ids

end

section
variable {B : Type} [LinearOrder B]

/-- `sort_by(|a, b| b.1.partial_cmp(&a.1))`: a stable sort, greatest score first. -/
def insertPair (a : Int × B) : List (Int × B) → List (Int × B)
  | [] => [a]
  | b :: l => if b.2 ≤ a.2 then a :: b :: l else b :: insertPair a l

def sortPairs : List (Int × B) → List (Int × B)
  | [] => []
  | a :: l => insertPair a (sortPairs l)

end

section
variable {K : Type} [Field K] [LinearOrder K] [IsStrictOrderedRing K] (r : Rounding K)

/-- `fuse_rrf`: /repo/next-plaid/src/text_search.rs:1006-1024.  `order` is the iteration order of the
hash map.  The two result vectors are shown as one list of pairs. -/
def fuseRrf (order : List (Int × K) → List (Int × K)) (sem kw : List Int) (alpha : K) (k : Nat) : List (Int × K) :=
  (sortPairs (order (addRanks r (r.rnd (1 - alpha)) (addRanks r alpha [] 0 sem) 0 kw))).take k

/-- `min_max_normalize`: /repo/next-plaid/src/text_search.rs:1041-1055.  The folds over `f32::min` and
`f32::max` start at the infinities, which the first element replaces. -/
def minMaxNormalize (ids : List Int) : List K → List (Int × K)
  | [] => []
  | s :: ss =>
    if r.rnd (ss.foldl max s - ss.foldl min s) = 0 then ids.map fun id => (id, 1)
    else (ids.zip (s :: ss)).map fun p =>
      (p.1, r.rnd (r.rnd (p.2 - ss.foldl min s) / r.rnd (ss.foldl max s - ss.foldl min s)))

/-- One of the two loops of `fuse_relative_score`: lines 1060-1065. -/
def addWeighted (w : K) (m : List (Int × K)) : List (Int × K) → List (Int × K)
  | [] => m
  | (id, s) :: l => addWeighted w (bump r m id (r.rnd (w * s))) l

/-- `fuse_relative_score`: /repo/next-plaid/src/text_search.rs:1031-1075. -/
def fuseRelative (order : List (Int × K) → List (Int × K)) (semIds : List Int) (semScores : List K)
    (kwIds : List Int) (kwScores : List K) (alpha : K) (k : Nat) : List (Int × K) :=
  (sortPairs (order (addWeighted r (r.rnd (1 - alpha))
    (addWeighted r alpha [] (minMaxNormalize r semIds semScores)) (minMaxNormalize r kwIds kwScores)))).take k

end

/-- `SQLITE_PARAM_LIMIT`: /repo/next-plaid/src/text_search.rs:1092. -/
def ftsParamLimit : Nat := 900

/-- `search_filtered` for a non-empty query: /repo/next-plaid/src/text_search.rs:1277-1342.
`select ids` is the result of the SQL statement for one chunk of ids, with scores in `A` (SQLite's
doubles); `toF32` converts them. -/
def searchFiltered {A B : Type} [LinearOrder B] (select : List Int → List (Int × A)) (toF32 : A → B)
    (k : Nat) (subset : List Int) : List (Int × B) :=
  if subset = [] then []
  else (sortPairs (((List.range (Index.numChunksFor subset.length ftsParamLimit)).flatMap fun i =>
    select (Index.chunkSlice subset ftsParamLimit i)).map fun p => (p.1, toF32 p.2))).take k

end NextPlaid.Fusion
