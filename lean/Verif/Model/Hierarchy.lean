import Verif.Model.Basic
import Verif.Model.Fusion

/-!
Model of the pooling of token embeddings: /repo/next-plaid-onnx/src/hierarchy.rs and `pool_embeddings_hierarchical`,
/repo/next-plaid-onnx/src/lib.rs:2249-2317.  Numbers are elements of an ordered field, with a rounding after each operation.  A distance that is
not finite (NaN or infinite) is `none`: it is never less than another one.  Arrays that the code indexes by clusters are functions.
-/

namespace NextPlaid.Hier

open NextPlaid.Fusion

variable {K : Type} [Field K] [LinearOrder K]

/-- `condensed_index`: hierarchy.rs:23-27. -/
def condensed (n i j : Nat) : Nat := n * i - i * (i + 1) / 2 + j - i - 1

/-- `pdist_cosine`, the order of its entries: hierarchy.rs:620-652.  `d i j` is the distance of two rows. -/
def pdist (d : Nat → Nat → Option K) (n : Nat) : List (Option K) :=
  (List.range n).flatMap fun i => (List.range' (i + 1) (n - (i + 1))).map (d i)

/-- A row of the linkage matrix: hierarchy.rs:14-16.  The code has the square root of `distSq`; cluster numbers are written as floats. -/
structure Row (K : Type) where
  a : Nat
  b : Nat
  distSq : K
  size : Nat
deriving DecidableEq

/-- `find_nearest_neighbor`: hierarchy.rs:262-284; `none` for `(usize::MAX, INFINITY)`. -/
def nearest (dist : Nat → Nat → Option K) (i : Nat) (active : List Nat) : Option (Nat × K) :=
  active.foldl (fun best j =>
    if j = i then best
    else match dist i j with
      | none => best
      | some d => match best with
        | none => some (j, d)
        | some b => if d < b.2 then some (j, d) else some b) none

/-- The new squared distance: hierarchy.rs:222-233. -/
def wardDist (r : Rounding K) (na nb nk : Nat) (ak bk ab : K) : K :=
  r.rnd (r.rnd (r.rnd (r.rnd (((na + nk : Nat) : K) * ak) + r.rnd (((nb + nk : Nat) : K) * bk)) - r.rnd ((nk : K) * ab)) / ((na + nb + nk : Nat) : K))

/-- The variables of `linkage_ward`: hierarchy.rs:128-176.  The chain is here with its last element first.  `cache k = none` is `INVALID_NN`. -/
structure St (K : Type) where
  dist : Nat → Nat → Option K
  size : Nat → Nat
  active : List Nat
  cache : Nat → Option (Nat × K)
  next : Nat
  chain : List Nat
  rows : List (Row K)

/-- The cached neighbour, or a new search: hierarchy.rs:189-196. -/
def near (s : St K) (i : Nat) : Option (Nat × K) :=
  match s.cache i with
  | some x => some x
  | none => nearest s.dist i s.active

/-- The new distances: hierarchy.rs:221-236. -/
def mergedDist (r : Rounding K) (s : St K) (a b : Nat) (ab : K) : Nat → Nat → Option K := fun i j =>
  let new := fun k : Nat => match s.dist a k, s.dist b k with
    | some ak, some bk => some (wardDist r (s.size a) (s.size b) (s.size k) ak bk ab)
    | _, _ => none
  let left := s.active.filter fun x => x ≠ a ∧ x ≠ b
  if i = s.next ∧ j ∈ left then new j
  else if j = s.next ∧ i ∈ left then new i
  else s.dist i j

/-- The merge of `a`, the last of the chain, with `b`, the one before: hierarchy.rs:199-250. -/
def merge (r : Rounding K) (s : St K) (a b : Nat) (ab : K) (below : List Nat) : St K :=
  let left := s.active.filter fun x => x ≠ a ∧ x ≠ b
  let dist := mergedDist r s a b ab
  let cache := fun k => if k ∈ left ∧ ((s.cache k).any fun x => x.1 = a ∨ x.1 = b) then none else s.cache k
  { dist := dist
    size := fun k => if k = s.next then s.size a + s.size b else s.size k
    active := left ++ [s.next]
    cache := fun k => if k = s.next then nearest dist s.next (left ++ [s.next]) else cache k
    next := s.next + 1
    chain := below
    rows := s.rows ++ [⟨min a b, max a b, ab, s.size a + s.size b⟩] }

/-- The inner loop: hierarchy.rs:186-255.  `none`: it is still running after `fuel` rounds.  A neighbour `usize::MAX` is pushed and panics in the
next round. -/
def grow (r : Rounding K) : Nat → St K → Option (Res (St K))
  | 0, _ => none
  | fuel + 1, s =>
    match s.chain with
    | [] => some (.error .panic)
    | cur :: below =>
      match near s cur with
      | none => some (.error .panic)
      | some (nn, d) =>
        let s1 := { s with cache := fun k => if k = cur then some (nn, d) else s.cache k }
        if below.head? = some nn then some (.ok (merge r s1 cur nn d below.tail))
        else grow r fuel { s1 with chain := nn :: cur :: below }

/-- The outer loop: hierarchy.rs:178-256. -/
def merges (r : Rounding K) (fuel : Nat) : Nat → St K → Option (Res (St K))
  | 0, s => some (.ok s)
  | n + 1, s =>
    match grow r fuel (if s.chain = [] then { s with chain := s.active.take 1 } else s) with
    | none => none
    | some (.error f) => some (.error f)
    | some (.ok s') => merges r fuel n s'

/-- The first state: hierarchy.rs:129-176. -/
def begin (r : Rounding K) (n : Nat) (ds : List (Option K)) : St K :=
  let dist := fun i j : Nat =>
    if i = j then some 0
    else if i < n ∧ j < n then (ds[condensed n (min i j) (max i j)]?.join).map fun d => r.rnd (d * d)
    else none
  { dist := dist, size := fun _ => 1, active := List.range n, cache := fun i => if i < n then nearest dist i (List.range n) else none,
    next := n, chain := [], rows := [] }

/-- `linkage` with Ward's method: hierarchy.rs:90-111 and 128-259. -/
def linkage (r : Rounding K) (fuel n : Nat) (ds : List (Option K)) : Option (Res (List (Row K))) :=
  if n ≤ 1 then some (.ok [])
  else if ds.length ≠ n * (n - 1) / 2 then some (.error .panic)
  else match merges r fuel (n - 1) (begin r n ds) with
    | none => none
    | some (.error f) => some (.error f)
    | some (.ok s) => some (.ok s.rows)

/-! ### Flat clusters -/

/-- `find` with path compression: hierarchy.rs:444-449.  `none`: deeper than `fuel` calls. -/
def find : Nat → List Nat → Nat → Option (Res (List Nat × Nat))
  | 0, _, _ => none
  | fuel + 1, parent, i =>
    match parent[i]? with
    | none => some (.error .panic)
    | some p =>
      if p = i then some (.ok (parent, i))
      else match find fuel parent p with
        | some (.ok (parent', root)) => some (.ok (parent'.set i root, root))
        | x => x

/-- `union`: hierarchy.rs:451-465. -/
def union (fuel : Nat) (parent rank : List Nat) (i j : Nat) : Option (Res (List Nat × List Nat)) :=
  match find fuel parent i with
  | none => none
  | some (.error f) => some (.error f)
  | some (.ok (p1, pi)) =>
    match find fuel p1 j with
    | none => none
    | some (.error f) => some (.error f)
    | some (.ok (p2, pj)) =>
      if pi = pj then some (.ok (p2, rank))
      else if rank.getD pi 0 < rank.getD pj 0 then some (.ok (p2.set pi pj, rank))
      else if rank.getD pj 0 < rank.getD pi 0 then some (.ok (p2.set pj pi, rank))
      else some (.ok (p2.set pj pi, rank.modify pi (· + 1)))

/-- `find_observation_in_cluster`: hierarchy.rs:507-517.  In a linkage matrix every row joins older clusters; otherwise the code would not
end, or panic. -/
def observation (rows : List (Row K)) (n cluster : Nat) : Res Nat :=
  if cluster < n then .ok cluster
  else
    match rows[cluster - n]? with
    | none => .error .panic
    | some row => if _h : row.a < cluster then observation rows n row.a else .error .panic
termination_by cluster

/-- The loop over merges: hierarchy.rs:467-487. -/
def joinAll (fuel : Nat) (all : List (Row K)) (n : Nat) : List (Row K) → List Nat → List Nat → Option (Res (List Nat × List Nat))
  | [], parent, rank => some (.ok (parent, rank))
  | row :: rest, parent, rank =>
    match observation all n row.a, observation all n row.b with
    | .ok o1, .ok o2 =>
      match union fuel parent rank o1 o2 with
      | some (.ok (p, k)) => joinAll fuel all n rest p k
      | some (.error f) => some (.error f)
      | none => none
    | _, _ => some (.error .panic)

/-- The loop that numbers the clusters: hierarchy.rs:489-503; `seen` are the roots that have a number, in the order of their numbers. -/
def label (fuel : Nat) : List Nat → List Nat → List Nat → Option (Res (List Nat))
  | [], _, _ => some (.ok [])
  | i :: rest, parent, seen =>
    match find fuel parent i with
    | none => none
    | some (.error f) => some (.error f)
    | some (.ok (p, root)) =>
      let seen' := if root ∈ seen then seen else seen ++ [root]
      match label fuel rest p seen' with
      | some (.ok ls) => some (.ok ((seen'.idxOf root + 1) :: ls))
      | x => x

/-- The clusters after the first `m` merges: hierarchy.rs:440-503, and again 527-588. -/
def cut (fuel : Nat) (rows : List (Row K)) (n m : Nat) : Option (Res (List Nat)) :=
  if rows.length < m then some (.error .panic)
  else
    match joinAll fuel rows n (rows.take m) (List.range n) (List.replicate n 0) with
    | none => none
    | some (.error f) => some (.error f)
    | some (.ok (parent, _)) => label fuel (List.range n) parent []

/-- `fcluster_maxclust`: hierarchy.rs:426-504. -/
def maxclust (fuel : Nat) (rows : List (Row K)) (n k : Nat) : Option (Res (List Nat)) :=
  if n ≤ k then some (.ok (List.range' 1 n))
  else if k = 0 then some (.ok (List.replicate n 1))
  else cut fuel rows n (n - k)

/-- `fcluster_distance`: hierarchy.rs:520-589; compared with the square of the threshold, which is not negative. -/
def distclust (fuel : Nat) (rows : List (Row K)) (n : Nat) (limitSq : K) : Option (Res (List Nat)) :=
  cut fuel rows n (rows.takeWhile fun x => x.distSq ≤ limitSq).length

/-! ### Pooling -/

/-- `*sum += value` for each component. -/
def addRow (r : Rounding K) (sum row : List K) : List K := List.zipWith (fun s v => r.rnd (s + v)) sum row

/-- `cluster_sums` and `cluster_counts`: lib.rs:2286-2300; labels outside are skipped. -/
def sums (r : Rounding K) (rows : List (List K)) (labels : List Nat) (k width : Nat) : List (List K × Nat) :=
  (rows.zip labels).foldl (fun acc x =>
    if x.2 - 1 < k then acc.modify (x.2 - 1) fun s => (addRow r s.1 x.1, s.2 + 1) else acc)
    (List.replicate k (List.replicate width 0, 0))

/-- `pool_embeddings_hierarchical`: lib.rs:2249-2317; `dist` is the cosine distance of two rows. A pool factor of 0, which would divide by zero, is
excluded by `pool_document_embeddings`.  The clusters are found in doubles, `r`, the means in singles, `q`. -/
def pool (r q : Rounding K) (dist : List K → List K → Option K) (fuel : Nat) (emb : List (List K)) (width factor protect : Nat) :
    Option (Res (List (List K))) :=
  if emb.length ≤ protect + 1 then some (.ok emb)
  else
    let n := emb.length - protect
    let k := max (n / factor) 1
    if n ≤ k then some (.ok emb)
    else
      let toPool := emb.drop protect
      let d := fun i j : Nat => dist (toPool.getD i []) (toPool.getD j [])
      match linkage r fuel n (pdist d n) with
      | none => none
      | some (.error f) => some (.error f)
      | some (.ok rows) =>
        match maxclust fuel rows n k with
        | none => none
        | some (.error f) => some (.error f)
        | some (.ok labels) =>
          some (.ok (emb.take protect ++ (sums q toPool labels k width).map fun s => s.1.map fun x => q.rnd (x / ((max s.2 1 : Nat) : K))))

/-- `pool_document_embeddings` for one document: lib.rs:1632-1643. -/
def poolDocument (r q : Rounding K) (dist : List K → List K → Option K) (fuel : Nat) (emb : List (List K)) (width : Nat) (factor : Option Nat) :
    Option (Res (List (List K))) :=
  match factor with
  | none => some (.ok emb)
  | some f => if 1 < f then pool r q dist fuel emb width f 1 else some (.ok emb)

end NextPlaid.Hier
