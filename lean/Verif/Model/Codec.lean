import Verif.Model.Basic

/-!
Model of the residual codec, /repo/next-plaid/src/codec.rs, and of the bit helpers of
/repo/next-plaid/src/utils.rs.  Bytes are natural numbers below 256.
-/

namespace NextPlaid.Codec

/-- `segment` reversal: /repo/next-plaid/src/codec.rs:180-185. -/
def revSegment (nbits segment : Nat) : Nat :=
  (List.range nbits).foldl
    (fun rev k => if segment &&& (1 <<< k) ≠ 0 then rev ||| (1 <<< (nbits - 1 - k)) else rev) 0

/-- The `while pos >= nbits` loop: /repo/next-plaid/src/codec.rs:177-194.
`fuel` bounds the number of iterations; 8 suffices because `pos` starts at 8 and `nbits ≥ 1`. -/
def revLoop (nbits val : Nat) : (fuel pos out : Nat) → Nat
  | 0, _, out => out
  | fuel + 1, pos, out =>
    if nbits ≤ pos then
      let segment := (val >>> (pos - nbits)) &&& ((1 <<< nbits) - 1)
      let out := out ||| revSegment nbits segment
      let out := if nbits < pos then out <<< nbits else out
      revLoop nbits val fuel (pos - nbits) out
    else out

/-- One slot of `byte_reversed_bits_map`: /repo/next-plaid/src/codec.rs:172-196 (`out as u8`). -/
def revByte (nbits val : Nat) : Nat := revLoop nbits val 8 8 0 % 256

/-- One row of `bucket_weight_indices_lookup`: /repo/next-plaid/src/codec.rs:204-210.
The loop `for k in (0..keys_per_byte).rev()` stores into a zeroed row. -/
def lookupRow (nbits byteVal : Nat) : List Nat :=
  let keys := 8 / nbits
  ((List.range keys).reverse).foldl
    (fun row k => row.set (keys - 1 - k) ((byteVal >>> (k * nbits)) &&& ((1 <<< nbits) - 1)))
    (List.replicate keys 0)

/-- `ResidualCodec`: /repo/next-plaid/src/codec.rs (struct fields used here).
`dim` is `centroids.ncols()`; the mmap/owned distinction of the centroid store is dropped, and
`avg_residual` is dropped because neither compression nor decompression reads it. -/
structure ResidualCodec (α : Type _) where
  nbits : Nat
  dim : Nat
  centroids : List (List α)
  bucketCutoffs : Option (List α)
  bucketWeights : Option (List α)
  byteReversedBitsMap : List Nat
  bucketWeightIndicesLookup : Option (List (List Nat))

/-- `ResidualCodec::new_with_store`: /repo/next-plaid/src/codec.rs:154-225. -/
def newWithStore {α : Type _} (nbits dim : Nat) (centroids : List (List α))
    (cutoffs weights : Option (List α)) : Res (ResidualCodec α) :=
  if nbits = 0 ∨ 8 % nbits ≠ 0 then .error .err
  else .ok {
    nbits := nbits
    dim := dim
    centroids := centroids
    bucketCutoffs := cutoffs
    bucketWeights := weights
    byteReversedBitsMap := (List.range 256).map (revByte nbits)
    bucketWeightIndicesLookup :=
      weights.map fun _ => (List.range 256).map (lookupRow nbits) }

/-- Bucket of a value: /repo/next-plaid/src/codec.rs:386. -/
def bucketOf {α : Type _} [LinearOrder α] (cutoffs : List α) (val : α) : Nat :=
  (cutoffs.filter fun c => decide (c < val)).length

/-- One iteration of the inner packing loop: /repo/next-plaid/src/codec.rs:390-394.
The state is `(packed_row, bit_idx)`; writing past the row is a panic. -/
def packBit (st : List Nat × Nat) (bit : Nat) : Res (List Nat × Nat) :=
  let (row, bitIdx) := st
  let byteIdx := bitIdx / 8
  let bitPos := 7 - bitIdx % 8
  if byteIdx < row.length then
    .ok (row.modify byteIdx (fun byte => byte ||| (bit <<< bitPos)), bitIdx + 1)
  else .error .panic

/-- The bits of one bucket, least significant first: /repo/next-plaid/src/codec.rs:389-395. -/
def packBucket (nbits : Nat) (st : List Nat × Nat) (bucket : Nat) : Res (List Nat × Nat) :=
  (List.range nbits).foldlM (fun st b => packBit st ((bucket >>> b) &&& 1)) st

/-- One row of `quantize_residuals`: /repo/next-plaid/src/codec.rs:380-399, with
`packed_dim = dim * nbits / 8` (line 366) where `dim` is the row length. -/
def quantizeRow {α : Type _} [LinearOrder α] (nbits : Nat) (cutoffs : List α) (row : List α) :
    Res (List Nat) := do
  let st ← row.foldlM (fun st val => packBucket nbits st (bucketOf cutoffs val))
    (List.replicate (row.length * nbits / 8) 0, 0)
  return st.1

/-- `quantize_residuals`: /repo/next-plaid/src/codec.rs:356-411. Rows are processed in parallel in
the code; here in order (rows are independent). -/
def quantizeResiduals {α : Type _} [LinearOrder α] (c : ResidualCodec α)
    (residuals : List (List α)) : Res (List (List Nat)) :=
  match c.bucketCutoffs with
  | none => .error .err
  | some cutoffs => residuals.mapM (quantizeRow c.nbits cutoffs)

/-- The inner loop of `decompress`, /repo/next-plaid/src/codec.rs:453-459. State: the output values
written so far (their number is `residual_idx`). -/
def decompressIndices {α : Type _} [Add α] (dim : Nat) (centroid weights : List α)
    (out : List α) (indices : List Nat) : Res (List α) :=
  indices.foldlM (fun out bucketIdx =>
    if out.length < dim then do
      let c ← idx centroid out.length
      let w ← idx weights bucketIdx
      return out ++ [c + w]
    else .ok out) out

/-- One row of `decompress` before normalisation: /repo/next-plaid/src/codec.rs:443-461.
The output row starts as zeros of length `dim`; positions never written keep `zero`. -/
def decompressRow {α : Type _} [Add α] (zero : α) (c : ResidualCodec α) (weights : List α)
    (lookup : List (List Nat)) (packed : List Nat) (code : Nat) : Res (List α) := do
  let centroid ← idx c.centroids code
  let out ← packed.foldlM (fun out byteVal => do
      let reversed ← idx c.byteReversedBitsMap byteVal
      let indices ← idx lookup reversed
      decompressIndices c.dim centroid weights out indices) []
  return out ++ List.replicate (c.dim - out.length) zero

/-- `decompress`: /repo/next-plaid/src/codec.rs:423-470. `normalize` stands for the floating-point
row normalisation of lines 464-467 and is applied to each row separately. -/
def decompress {α : Type _} [Add α] (zero : α) (normalize : List α → List α)
    (c : ResidualCodec α) (packed : List (List Nat)) (codes : List Nat) : Res (List (List α)) :=
  match c.bucketWeights with
  | none => .error .err
  | some weights =>
    match c.bucketWeightIndicesLookup with
    | none => .error .err
    | some lookup => do
      let rows ← (List.range packed.length).mapM (fun i => do
        let code ← idx codes i
        let row ← idx packed i
        decompressRow zero c weights lookup row code)
      return rows.map normalize

/-- Score row to centroid code: /repo/next-plaid/src/codec.rs:331-337. -/
def argmaxRow {α : Type _} [LinearOrder α] (row : List (Score α)) : Nat :=
  match maxBy (fun (a b : Nat × Score α) => Score.cmpForMax a.2 b.2)
      ((List.range row.length).zip row) with
  | some p => p.1
  | none => 0

/-- `(0..n).step_by(b).map(|s| (s, (s+b).min(n)))`: /repo/next-plaid/src/codec.rs:315-318.
`fuel` bounds the number of batches (`n` suffices when `b ≥ 1`). -/
def batchRanges (n b : Nat) : (fuel start : Nat) → List (Nat × Nat)
  | 0, _ => []
  | fuel + 1, start =>
    if start < n then (start, min (start + b) n) :: batchRanges n b fuel (start + b) else []

/-- `compress_into_codes_cpu`: /repo/next-plaid/src/codec.rs:297-343.
`score e c` is the floating-point dot product, a parameter. `memory` is the byte budget of
`max_nearest_centroid_memory` (lines 13-20). Dividing by zero centroids is a panic. -/
def compressIntoCodesCpu {α ε : Type _} [LinearOrder α] (memory : Nat)
    (score : ε → ε → Score α) (centroids embeddings : List ε) : Res (List Nat) :=
  let n := embeddings.length
  if n = 0 then .ok []
  else if centroids.length = 0 then .error .panic
  else
    let batchSize := max 1 (min 1024 (memory / (centroids.length * 4)))
    let ranges := batchRanges n batchSize n 0
    .ok ((ranges.map fun (s, e) =>
      ((embeddings.drop s).take (e - s)).map fun emb =>
        argmaxRow (centroids.map (score emb))).flatten)

/-- `packbits`: /repo/next-plaid/src/utils.rs:193-203. -/
def packChunk (chunk : List Nat) : Nat :=
  ((List.range chunk.length).zip chunk).foldl (fun byte p => byte ||| (p.2 <<< (7 - p.1))) 0

/-- `slice::chunks(8)`; `fuel` bounds the number of chunks. -/
def chunks8 : (fuel : Nat) → List Nat → List (List Nat)
  | 0, _ => []
  | _ + 1, [] => []
  | fuel + 1, l@(_ :: _) => l.take 8 :: chunks8 fuel (l.drop 8)

/-- `packbits`: /repo/next-plaid/src/utils.rs:193-203. -/
def packbits (bits : List Nat) : List Nat := (chunks8 bits.length bits).map packChunk

/-- `unpackbits`: /repo/next-plaid/src/utils.rs:214-222. -/
def unpackbits (bytes : List Nat) : List Nat :=
  bytes.flatMap fun byte => ((List.range 8).reverse).map fun i => (byte >>> i) &&& 1

end NextPlaid.Codec
