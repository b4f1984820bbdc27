import Verif.Model.Hierarchy
import Mathlib.Algebra.BigOperators.Group.List.Basic

/-!
What a hierarchical clustering is, without the algorithm.
-/

namespace NextPlaid.Spec

open NextPlaid.Hier (Row)

section
variable {K : Type}

/-- The observations in a cluster of a linkage matrix over `n` observations: cluster `c < n` is one observation, cluster `n + t` is made of
the two clusters of row `t`. -/
def members (rows : List (Row K)) (n c : Nat) : List Nat :=
  if c < n then [c]
  else
    match rows[c - n]? with
    | none => []
    | some row => if _h : row.a < c ∧ row.b < c then members rows n row.a ++ members rows n row.b else []
termination_by c

/-- The linkage matrix is a tree: `n - 1` rows, each joining two older clusters, none joined twice; the last number of a row is the number of
observations in the new cluster. -/
structure Dendrogram (n : Nat) (rows : List (Row K)) : Prop where
  count : rows.length = n - 1
  older : ∀ t row, rows[t]? = some row → row.a < row.b ∧ row.b < n + t
  once : (rows.flatMap fun x => [x.a, x.b]).Nodup
  size : ∀ t row, rows[t]? = some row → row.size = (members rows n (n + t)).length

/-- A cluster that exists when the first `t` rows are done and is in none of them. -/
def Alive (rows : List (Row K)) (n t c : Nat) : Prop := c < n + t ∧ ∀ x ∈ rows.take t, c ≠ x.a ∧ c ≠ x.b

/-- Two observations are in the same cluster after the first `m` merges. -/
def OneCluster (rows : List (Row K)) (n m i j : Nat) : Prop :=
  i = j ∨ ∃ t < m, i ∈ members rows n (n + t) ∧ j ∈ members rows n (n + t)

/-- Flat clusters are numbered 1, 2, ..., `k`, in the order of their first members. -/
structure Numbered (labels : List Nat) (k : Nat) : Prop where
  range : ∀ l, l ∈ labels ↔ 1 ≤ l ∧ l ≤ k
  order : ∀ i l, labels[i]? = some (l + 1) → l = 0 ∨ l ∈ labels.take i

end

section
variable {K : Type} [Field K]

/-- The sum of `sq` over all pairs. -/
def total (sq : Nat → Nat → K) (A B : List Nat) : K := (A.map fun a => (B.map fun b => sq a b).sum).sum

/-- Ward's dissimilarity of two clusters, from the squared distances of the observations: the sum of squares about the mean of the union,
less those of the parts, times two. -/
def ward (sq : Nat → Nat → K) (A B : List Nat) : K :=
  (2 * total sq A B - (B.length : K) / (A.length : K) * total sq A A - (A.length : K) / (B.length : K) * total sq B B)
    / ((A.length : K) + (B.length : K))

/-- The mean of the rows with indices in `c`. -/
def mean (rows : List (List K)) (c : List Nat) (col : Nat) : K :=
  (c.map fun i => (rows.getD i []).getD col 0).sum / (c.length : K)

end

end NextPlaid.Spec
