import Verif.Model.Codec
import Verif.Model.Results
import Verif.Model.Fusion
import Mathlib.Data.Rat.Floor

/-!
What an index learns from its documents when it is created: /repo/next-plaid/src/kmeans.rs `compute_kmeans`, the first part of
`create_index_files` and `prepare_codec_artifacts` in /repo/next-plaid/src/index.rs, and the quantiles of /repo/next-plaid/src/utils.rs.

k-means itself (the fastkmeans crate) is a parameter, and so is the order in which the documents are drawn (`indices.shuffle`).
-/

namespace NextPlaid.Train

open NextPlaid.Fusion (Rounding)
open NextPlaid.Rank (sortBy)

section
variable {R : Type}

/-- The rows of the documents with these numbers, one document after the other.
/repo/next-plaid/src/kmeans.rs:290-311. -/
def rowsOf (docs : List (List R)) (is : List Nat) : List R := is.flatMap fun i => docs.getD i []

/-- `ComputeKmeansConfig`, as far as it is used here: /repo/next-plaid/src/kmeans.rs:27-43. -/
structure KmeansConfig where
  samples : Option Nat
  partitions : Option Nat

/-- How many documents are drawn: /repo/next-plaid/src/kmeans.rs:276-280.  The square root is exact here. -/
def drawn (asked : Option Nat) (n : Nat) : Nat := min (asked.getD (min (1 + Nat.sqrt (30720 * n)) n)) n

/-- `2usize.pow((16.0 * e.sqrt()).log2().floor() as u32)`; root and logarithm are exact here.
/repo/next-plaid/src/kmeans.rs:318. -/
def powerFor (e : ℚ) : Nat := 2 ^ (Nat.log2 ⌊256 * e⌋.toNat / 2)

/-- The estimate of all tokens from those of the drawn documents: /repo/next-plaid/src/kmeans.rs:316-317. -/
def estimate (d : Rounding ℚ) (tokens drawn n : Nat) : ℚ := d.rnd (d.rnd ((tokens : ℚ) / drawn) * n)

/-- `actual_k`: /repo/next-plaid/src/kmeans.rs:313-322. -/
def clusters (d : Rounding ℚ) (asked : Option Nat) (tokens drawn n : Nat) : Nat :=
  min (asked.getD (powerFor (estimate d tokens drawn n))) tokens

/-- `compute_kmeans`: /repo/next-plaid/src/kmeans.rs:264-421.  `order`: the shuffled numbers of the documents; `train`: k-means. -/
def computeKmeans (d : Rounding ℚ) (train : Nat → List R → Res (List R)) (normalize : R → R) (cfg : KmeansConfig) (order : List Nat)
    (docs : List (List R)) : Res (List R) :=
  if docs = [] then .error .err
  else if clusters d cfg.partitions (rowsOf docs (order.take (drawn cfg.samples docs.length))).length (drawn cfg.samples docs.length)
      docs.length = 0 then .error .err
  else (train (clusters d cfg.partitions (rowsOf docs (order.take (drawn cfg.samples docs.length))).length (drawn cfg.samples docs.length)
      docs.length) (rowsOf docs (order.take (drawn cfg.samples docs.length)))).bind fun cs => .ok (cs.map normalize)

/-- All tokens. -/
def tokens (docs : List (List R)) : Nat := (docs.map List.length).sum

/-- `estimate_num_partitions`: /repo/next-plaid/src/kmeans.rs:428-453. -/
def estimatePartitions (d : Rounding ℚ) (docs : List (List R)) : Nat :=
  if docs = [] then 0
  else min (powerFor (d.rnd (d.rnd ((tokens docs : ℚ) / docs.length) * docs.length)))
    ⌊d.rnd (d.rnd ((tokens docs : ℚ) / docs.length) * (min (min (1 + Nat.sqrt (30720 * docs.length)) docs.length) docs.length : Nat))⌋.toNat

/-! ### The quantiser -/

/-- `(0.05 * total_embeddings as f64).min(50000.0) as usize`; below `2^48` tokens the product's rounding does not matter.
/repo/next-plaid/src/index.rs:212, 591. -/
def heldoutSize (total : Nat) : Nat := min (total / 20) 50000

/-- The loop that collects rows: /repo/next-plaid/src/index.rs:216-226, 595-605. -/
def collect (size : Nat) : Nat → List (List R) → List R
  | _, [] => []
  | have_, d :: ds => if size ≤ have_ then []
    else d.take (min (size - have_) d.length) ++ collect size (have_ + min (size - have_) d.length) ds

/-- How many documents are sampled: /repo/next-plaid/src/index.rs:195-198, 573-575. -/
def sampleCount (n : Nat) : Nat := max (min (Nat.sqrt (30720 * n)) n) 1

/-- `heldout`: /repo/next-plaid/src/index.rs:194-229, 572-608. -/
def heldout (order : List Nat) (docs : List (List R)) : List R :=
  collect (heldoutSize (tokens docs)) 0 ((order.take (sampleCount docs.length)).reverse.map fun i => docs.getD i [])

end

section
variable {K : Type} [Field K] [LinearOrder K] (r : Rounding K)

/-- One quantile of a sorted array that is not empty, for the fraction `p / q`.  The index `idx_float`, the weight and `1.0 - weight` are
exact because `q` is a power of two of at most 512.  /repo/next-plaid/src/utils.rs:103-113, 137-148. -/
def quantileAt (s : List K) (p q : Nat) : K :=
  if p * (s.length - 1) % q = 0 then s.getD (p * (s.length - 1) / q) 0
  else r.rnd (r.rnd (s.getD (p * (s.length - 1) / q) 0 * (1 - (p * (s.length - 1) % q : Nat) / (q : K))) +
    r.rnd (s.getD (p * (s.length - 1) / q + 1) 0 * ((p * (s.length - 1) % q : Nat) / (q : K))))

/-- `sorted.sort_by(partial_cmp)`, without not-a-numbers: /repo/next-plaid/src/utils.rs:99-100, 132-133. -/
def sorted (arr : List K) : List K := sortBy (fun a b => decide (a ≤ b)) arr

/-- `quantiles` (and, for one fraction, `quantile`): /repo/next-plaid/src/utils.rs:94-150. -/
def quantiles (arr : List K) (qs : List (Nat × Nat)) : List K :=
  if arr = [] then List.replicate qs.length 0 else qs.map fun q => quantileAt r (sorted arr) q.1 q.2

/-- `bucket_cutoffs`: /repo/next-plaid/src/index.rs:260-263, 269, 647-650, 657. -/
def cutoffs (nbits : Nat) (residuals : List K) : List K :=
  quantiles r residuals ((List.range (2 ^ nbits - 1)).map fun i => (i + 1, 2 ^ nbits))

/-- `bucket_weights`: `(i + 0.5) / n_options`.  /repo/next-plaid/src/index.rs:264-266, 270, 651-653, 658. -/
def weights (nbits : Nat) (residuals : List K) : List K :=
  quantiles r residuals ((List.range (2 ^ nbits)).map fun i => (2 * i + 1, 2 * 2 ^ nbits))

/-- `flat_residuals`; `code`: the centroid that a row is given (C04).  /repo/next-plaid/src/index.rs:235-247, 268, 616-630, 656. -/
def residuals (code : List K → Nat) (centroids : List (List K)) (rows : List (List K)) : List K :=
  rows.flatMap fun row => List.zipWith (fun x c => r.rnd (x - c)) row (centroids.getD (code row) [])

/-- Cutoffs and weights of a new index: /repo/next-plaid/src/index.rs:182-284, 551-666. -/
def trainQuantiser (nbits : Nat) (code : List K → Nat) (centroids : List (List K)) (order : List Nat) (docs : List (List (List K))) :
    List K × List K :=
  (cutoffs r nbits (residuals r code centroids (heldout order docs)), weights r nbits (residuals r code centroids (heldout order docs)))

end

end NextPlaid.Train
