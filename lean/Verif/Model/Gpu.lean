import Verif.Model.Codec

/-!
Model of compression on a GPU: /repo/next-plaid/src/cuda.rs, and of the places that choose between GPU and CPU: /repo/next-plaid/src/index.rs:17-40,
289-371 and 730-776, /repo/next-plaid/src/codec.rs:260-293.

Memory of the device is a list for each buffer.  Reading or writing outside a buffer, which is undefined in CUDA, is `Fault.panic`, so that a call that
ends otherwise touched only its buffers.  Floating point numbers are a type `γ`; their subtraction and the dot product of cuBLAS are parameters.
-/

namespace NextPlaid.Gpu

variable {γ α β : Type}

/-- `x as i32`: the remainder modulo 2^32, as a signed number. -/
def asI32 (x : Nat) : Int := if x % 4294967296 < 2147483648 then (x % 4294967296 : Nat) else ((x % 4294967296 : Nat) : Int) - 4294967296

/-- `a > b` for floats.  The tags of non-finite scores are 0 for NaN, 1 for plus and 2 for minus infinity; other tags do not occur. -/
def gt [LinearOrder α] : Score α → Score α → Bool
  | .fin a, .fin b => decide (b < a)
  | .fin _, .nonfin t => t == 2
  | .nonfin t, .fin _ => t == 1
  | .nonfin t, .nonfin u => t == 1 && u == 2

/-- A device with its state of health.  `dot a b`: the entry of the product of cuBLAS for a row `a` of the first and a column `b` of the second matrix;
`ok b c`: whether call `c` of batch `b` succeeds (call 9 of batch 0 is the copy of the centroids); `orderC b`, `orderR b`: the order in which the
writes of all threads of the two kernels reach the memory in batch `b`. -/
structure Device (γ α : Type) where
  dot : List γ → List γ → Score α
  sub : γ → γ → γ
  zero : γ
  zeroScore : Score α
  ok : Nat → Nat → Bool
  orderC : Nat → List (Nat × Nat) → List (Nat × Nat)
  orderR : Nat → List (Nat × γ) → List (Nat × γ)

/-- `ctx.stream. ... .map_err(...)?`: /repo/next-plaid/src/cuda.rs:378-380 and the like. -/
def call (ok : Bool) : Res Unit := if ok then .ok () else .error .err

/-- A write of a thread to a buffer of the device. -/
def store (buf : List β) (w : Nat × β) : Res (List β) := if w.1 < buf.length then .ok (buf.set w.1 w.2) else .error .panic

/-- The threads of a grid, by block and place in the block. -/
def threads (grid block : Nat) : List (Nat × Nat) := (List.range grid).flatMap fun b => (List.range block).map fun t => (b, t)

/-- `launch`: every thread of the grid runs; no kernel here reads what it writes, so a schedule is an order of the writes.  An empty grid or block is
refused by the driver. -/
def launch (grid block : Nat) (thread : Nat → Nat → Res (List (Nat × β))) (order : List (Nat × β) → List (Nat × β)) (buf : List β) : Res (List β) :=
  if grid = 0 ∨ block = 0 then .error .err
  else do
    let ws ← (threads grid block).mapM fun p => thread p.1 p.2
    (order ws.flatten).foldlM store buf

/-- The loop of `argmax_kernel`: /repo/next-plaid/src/cuda.rs:201-207. -/
def argmaxLoop [LinearOrder α] (row : Nat → Res (Score α)) : List Nat → Score α → Nat → Res Nat
  | [], _, best => .ok best
  | j :: js, val, best =>
    match row j with
    | .error f => .error f
    | .ok v => if gt v val then argmaxLoop row js v j else argmaxLoop row js val best

/-- A thread of `argmax_kernel` inside the matrix: /repo/next-plaid/src/cuda.rs:197-209. -/
def argmaxRow [LinearOrder α] (scores : List (Score α)) (cols i : Nat) : Res (List (Nat × Nat)) := do
  let first ← idx scores (i * cols)
  let best ← argmaxLoop (fun j => idx scores (i * cols + j)) (List.range' 1 (cols - 1)) first 0
  return [(i, best)]

/-- `argmax_kernel`: /repo/next-plaid/src/cuda.rs:188-210. -/
def argmaxThread [LinearOrder α] (scores : List (Score α)) (numRows numCols : Int) (blockDim block thread : Nat) : Res (List (Nat × Nat)) :=
  if numRows ≤ ((block * blockDim + thread : Nat) : Int) then .ok []
  else argmaxRow scores numCols.toNat (block * blockDim + thread)

/-- `for (int d = d_start; d < dim; d += stride)`: /repo/next-plaid/src/cuda.rs:234; `fuel` bounds the number of rounds, `dim` suffices. -/
def strided (dim stride : Nat) : (fuel d : Nat) → List Nat
  | 0, _ => []
  | fuel + 1, d => if d < dim then d :: strided dim stride fuel (d + stride) else []

/-- One round of that loop: /repo/next-plaid/src/cuda.rs:235. -/
def gatherAt (sub : γ → γ → γ) (embs cents : List γ) (dim row code d : Nat) : Res (Nat × γ) := do
  let e ← idx embs (row * dim + d)
  let c ← idx cents (code * dim + d)
  return (row * dim + d, sub e c)

/-- A thread of `gather_subtract_kernel` inside the matrix: /repo/next-plaid/src/cuda.rs:229-236. -/
def gatherRow (sub : γ → γ → γ) (embs cents : List γ) (codes : List Nat) (dim blockDim row thread : Nat) : Res (List (Nat × γ)) := do
  let code ← idx codes row
  (strided dim blockDim dim thread).mapM (gatherAt sub embs cents dim row code)

/-- `gather_subtract_kernel`: /repo/next-plaid/src/cuda.rs:215-237. -/
def gatherThread (sub : γ → γ → γ) (embs cents : List γ) (codes : List Nat) (numRows dim : Int) (blockDim block thread : Nat) : Res (List (Nat × γ)) :=
  if numRows ≤ (block : Int) then .ok [] else gatherRow sub embs cents codes dim.toNat blockDim block thread

/-- One entry of `cublasSgemm` with `transa` = T and `transb` = N, as documented: matrices are stored by columns. -/
def gemmAt (dot : List γ → List γ → Score α) (k lda ldb ldc : Nat) (a b : List γ) (p : Nat × Nat) : Res (Nat × Score α) := do
  let x ← (List.range k).mapM fun i => idx a (p.2 * lda + i)
  let y ← (List.range k).mapM fun i => idx b (p.1 * ldb + i)
  return (p.1 * ldc + p.2, dot x y)

/-- `blas.gemm(cfg, a, b, c)` with `alpha` = 1 and `beta` = 0; negative sizes are refused. -/
def gemm (dot : List γ → List γ → Score α) (m n k lda ldb ldc : Int) (a b : List γ) (c : List (Score α)) : Res (List (Score α)) :=
  if m < 0 ∨ n < 0 ∨ k < 0 then .error .err
  else do
    let ws ← (threads n.toNat m.toNat).mapM (gemmAt dot k.toNat lda.toNat ldb.toNat ldc.toNat a b)
    ws.foldlM store c

/-- `compute_batch_size`: /repo/next-plaid/src/cuda.rs:343-349. -/
def batchSize (n k dim maxMem : Nat) : Nat := min (max ((maxMem - k * dim * 4) / (dim * 4 + k * 4 + 4)) 1) n

/-- `compute_batch_size_with_residuals`: /repo/next-plaid/src/cuda.rs:466-477. -/
def batchSizeResiduals (n k dim maxMem : Nat) : Nat := min (max ((maxMem - k * dim * 4) / (dim * 4 + k * 4 + 4 + dim * 4)) 1) n

/-- Scores and codes of batch `b`, `rows` flat: /repo/next-plaid/src/cuda.rs:397-458 and 549-604. -/
def batchCodes [LinearOrder α] (dev : Device γ α) (b n k dim : Nat) (cents rows : List γ) : Res (List Nat) := do
  call (dev.ok b 0)
  call (dev.ok b 1)
  call (dev.ok b 2)
  let scores ← gemm dev.dot (asI32 k) (asI32 n) (asI32 dim) (asI32 dim) (asI32 dim) (asI32 k) cents rows (List.replicate (n * k) dev.zeroScore)
  call (dev.ok b 3)
  call (dev.ok b 4)
  let codes ← launch ((n + 255) / 256) 256 (argmaxThread scores (asI32 n) (asI32 k) 256) (dev.orderC b) (List.replicate n 0)
  call (dev.ok b 5)
  return codes

/-- Residuals of batch `b`: /repo/next-plaid/src/cuda.rs:609-636. -/
def batchResiduals (dev : Device γ α) (b n dim : Nat) (cents rows : List γ) (codes : List Nat) : Res (List γ) := do
  call (dev.ok b 6)
  call (dev.ok b 7)
  let out ← launch n (min dim 256) (gatherThread dev.sub rows cents codes (asI32 n) (asI32 dim) (min dim 256)) (dev.orderR b) (List.replicate (n * dim) dev.zero)
  call (dev.ok b 8)
  return out

/-- The rows of a batch, contiguous: /repo/next-plaid/src/cuda.rs:390-395. -/
def slice (emb : List (List γ)) (r : Nat × Nat) : List γ := ((emb.drop r.1).take (r.2 - r.1)).flatten

/-- The loop of `compress_into_codes_cuda_batched`: /repo/next-plaid/src/cuda.rs:386-462.  `b` is the number of the batch. -/
def codesLoop [LinearOrder α] (dev : Device γ α) (k dim : Nat) (cents : List γ) (emb : List (List γ)) : (b : Nat) → List (Nat × Nat) → List Nat → Res (List Nat)
  | _, [], acc => .ok acc
  | b, r :: rs, acc => do
    let codes ← batchCodes dev b (r.2 - r.1) k dim cents (slice emb r)
    codesLoop dev k dim cents emb (b + 1) rs (acc ++ codes)

/-- `compress_into_codes_cuda_batched`: /repo/next-plaid/src/cuda.rs:353-463.  `dim` is the width of the embeddings. -/
def compressCuda [LinearOrder α] (dev : Device γ α) (maxMem dim : Nat) (cents emb : List (List γ)) : Res (List Nat) :=
  if emb.length = 0 then .ok []
  else do
    call (dev.ok 0 9)
    codesLoop dev cents.length dim cents.flatten emb 0
      (Codec.batchRanges emb.length (batchSize emb.length cents.length dim maxMem) emb.length 0) []

/-- `copy_from_slice` into the rows from `start` on: /repo/next-plaid/src/cuda.rs:646-650. -/
def copyAt (all : List γ) (start stop : Nat) (host : List γ) : Res (List γ) :=
  if host.length = stop - start ∧ stop ≤ all.length then .ok (all.take start ++ host ++ all.drop stop) else .error .panic

/-- The loop of `compress_and_residuals_cuda_batched`: /repo/next-plaid/src/cuda.rs:539-651. -/
def residualsLoop [LinearOrder α] (dev : Device γ α) (k dim : Nat) (cents : List γ) (emb : List (List γ)) :
    (b : Nat) → List (Nat × Nat) → List Nat → List γ → Res (List Nat × List γ)
  | _, [], acc, all => .ok (acc, all)
  | b, r :: rs, acc, all => do
    let codes ← batchCodes dev b (r.2 - r.1) k dim cents (slice emb r)
    let host ← batchResiduals dev b (r.2 - r.1) dim cents (slice emb r) codes
    let all ← copyAt all (r.1 * dim) (r.2 * dim) host
    residualsLoop dev k dim cents emb (b + 1) rs (acc ++ codes) all

/-- The rows of an `Array2` of width `dim`. -/
def rowsOf (n dim : Nat) (flat : List γ) : List (List γ) := (List.range n).map fun i => (flat.drop (i * dim)).take dim

/-- `compress_and_residuals_cuda_batched`: /repo/next-plaid/src/cuda.rs:496-654. -/
def residualsCuda [LinearOrder α] (dev : Device γ α) (maxMem dim : Nat) (cents emb : List (List γ)) : Res (List Nat × List (List γ)) :=
  if emb.length = 0 then .ok ([], [])
  else do
    call (dev.ok 0 9)
    let out ← residualsLoop dev cents.length dim cents.flatten emb 0
      (Codec.batchRanges emb.length (batchSizeResiduals emb.length cents.length dim maxMem) emb.length 0) [] (List.replicate (emb.length * dim) dev.zero)
    return (out.1, rowsOf emb.length dim out.2)

/-- `row -= centroid`, as far as both go: /repo/next-plaid/src/index.rs:32-36. -/
def subRow (sub : γ → γ → γ) : List γ → List γ → List γ
  | r :: rs, c :: cs => sub r c :: subRow sub rs cs
  | rs, _ => rs

/-- One row of `compress_and_residuals_cpu`: /repo/next-plaid/src/index.rs:31-36; `centroids.row(code)` panics out of bounds. -/
def cpuRow (sub : γ → γ → γ) (cents : List (List γ)) (p : List γ × Nat) : Res (List γ) := do
  let c ← idx cents p.2
  return subRow sub p.1 c

/-- `compress_and_residuals_cpu`: /repo/next-plaid/src/index.rs:17-40.  The rows are done in parallel; each has its own. -/
def residualsCpu [LinearOrder α] (memory : Nat) (score : List γ → List γ → Score α) (sub : γ → γ → γ) (cents emb : List (List γ)) :
    Res (List Nat × List (List γ)) := do
  let codes ← Codec.compressIntoCodesCpu memory score cents emb
  let rows ← (emb.zip codes).mapM (cpuRow sub cents)
  return (codes, rows)

/-- What a process has to compute with.  `score` and `memory` are those of the CPU; `device` is the answer of `get_global_context`. -/
structure Machine (γ α : Type) where
  memory : Nat
  score : List γ → List γ → Score α
  sub : γ → γ → γ
  device : Option (Device γ α)
  /-- `is_force_gpu`: /repo/next-plaid/src/lib.rs:71-78. -/
  forceGpu : Bool

/-- After the GPU: /repo/next-plaid/src/index.rs:324-337 and codec.rs:273-288.  An error makes the CPU do the work, unless the GPU is demanded. -/
def orCpu {R : Type} (forceGpu : Bool) (gpu cpu : Res R) : Res R :=
  match gpu with
  | .ok r => .ok r
  | .error .err => if forceGpu then .error .panic else cpu
  | .error .panic => .error .panic

/-- No device: /repo/next-plaid/src/index.rs:339-343 and codec.rs:289-292. -/
def noDevice {R : Type} (forceGpu : Bool) (cpu : Res R) : Res R := if forceGpu then .error .panic else cpu

/-- `compress_into_codes`: /repo/next-plaid/src/codec.rs:260-293; the limit of memory is `DEFAULT_MAX_GPU_MEMORY`, cuda.rs:50. -/
def compress [LinearOrder α] (m : Machine γ α) (dim : Nat) (cents emb : List (List γ)) : Res (List Nat) :=
  match m.device with
  | some dev => orCpu m.forceGpu (compressCuda dev 4294967296 dim cents emb) (Codec.compressIntoCodesCpu m.memory m.score cents emb)
  | none => noDevice m.forceGpu (Codec.compressIntoCodesCpu m.memory m.score cents emb)

/-- The choice in `encode_index_chunk` and `create_index_files`: /repo/next-plaid/src/index.rs:312-352 and 737-776. -/
def compressResiduals [LinearOrder α] (m : Machine γ α) (forceCpu : Bool) (dim : Nat) (cents emb : List (List γ)) : Res (List Nat × List (List γ)) :=
  match forceCpu, m.device with
  | true, _ => residualsCpu m.memory m.score m.sub cents emb
  | false, some dev => orCpu m.forceGpu (residualsCuda dev 4294967296 dim cents emb) (residualsCpu m.memory m.score m.sub cents emb)
  | false, none => noDevice m.forceGpu (residualsCpu m.memory m.score m.sub cents emb)

/-- `EncodedIndexChunk`: /repo/next-plaid/src/index.rs:184-188. -/
structure Chunk where
  codes : List Nat
  residuals : List (List Nat)
  doclens : List Nat

/-- One row of `slice_mut(...).assign(doc)`: /repo/next-plaid/src/index.rs:302-309.  `assign` of ndarray repeats a document of width one; any other width
that is not that of the codec panics. -/
def assignRow (dim : Nat) (row : List γ) : Res (List γ) :=
  if row.length = dim then .ok row
  else
    match row with
    | [x] => .ok (List.replicate dim x)
    | _ => .error .panic

/-- `encode_index_chunk`: /repo/next-plaid/src/index.rs:289-371.  The reshaping of the packed rows, which have the width asked for, is dropped. -/
def encodeChunk [LinearOrder α] [LinearOrder γ] (m : Machine γ α) (codec : Codec.ResidualCodec γ) (forceCpu : Bool) (docs : List (List (List γ))) :
    Res Chunk := do
  let emb ← docs.flatten.mapM (assignRow codec.dim)
  let out ← compressResiduals m forceCpu codec.dim codec.centroids emb
  let packed ← Codec.quantizeResiduals codec out.2
  return { codes := out.1, residuals := packed, doclens := docs.map List.length }

/-! ### The context of the process -/

/-- How an attempt to initialise CUDA ends. -/
inductive Init where
  | ok
  | err
  | panic
deriving DecidableEq, Repr

/-- `CUDA_BROKEN` and `GLOBAL_CUDA_CONTEXT`: /repo/next-plaid/src/cuda.rs:55-59.  Contexts are numbered; `tries` counts the attempts, `waiting t` says that
call `t` has seen that CUDA is not broken and waits for the lock, `answers` are those given so far, the last first. -/
structure Ctx where
  broken : Bool := false
  ctx : Option Nat := none
  tries : Nat := 0
  waiting : Nat → Bool := fun _ => false
  answers : List (Nat × Option Nat) := []

/-- Steps of the threads of a process. -/
inductive Ev where
  /-- Call `t` of `get_global_context` reads the flag: /repo/next-plaid/src/cuda.rs:107-109. -/
  | start (t : Nat)
  /-- Call `t` has the lock: lines 111-143. -/
  | finish (t : Nat) (o : Init)
  /-- `mark_cuda_broken`: lines 165-167. -/
  | mark
  /-- The two steps of `clear_cuda_broken`: lines 175 and 177-181. -/
  | clearFlag
  | clearCtx
deriving DecidableEq, Repr

/-- The part of `get_global_context` under the lock: /repo/next-plaid/src/cuda.rs:114-143. -/
def underLock (s : Ctx) (t : Nat) (o : Init) : Ctx :=
  match s.ctx with
  | some c => { s with answers := (t, some c) :: s.answers }
  | none =>
    match o with
    | .ok => { s with ctx := some s.tries, tries := s.tries + 1, answers := (t, some s.tries) :: s.answers }
    | _ => { s with broken := true, tries := s.tries + 1, answers := (t, none) :: s.answers }

/-- One step. -/
def Ctx.step (s : Ctx) : Ev → Ctx
  | .start t => if s.broken then { s with answers := (t, none) :: s.answers } else { s with waiting := fun u => u == t || s.waiting u }
  | .finish t o => if s.waiting t then underLock { s with waiting := fun u => u != t && s.waiting u } t o else s
  | .mark => { s with broken := true }
  | .clearFlag => { s with broken := false }
  | .clearCtx => { s with ctx := none }

/-- Any number of steps. -/
def Ctx.run (s : Ctx) (evs : List Ev) : Ctx := evs.foldl Ctx.step s

/-! ### The panic hook -/

/-- What happens with the message of a panic: the hook of the program, the one of the standard library, or nothing. -/
inductive Hook where
  | user
  | std
  | silent
deriving DecidableEq, Repr

/-- The steps of `catch_cuda_panic` that concern the hook of the process, by call: /repo/next-plaid/src/cuda.rs:42-45, and the copy in
/repo/next-plaid-onnx/src/lib.rs:79-88. -/
inductive HookEv where
  | take (t : Nat)
  | silence (t : Nat)
  | restore (t : Nat)
deriving DecidableEq, Repr

/-- The hook and what each call has kept as `prev_hook`. -/
structure Hooks where
  hook : Hook := .user
  kept : Nat → Hook := fun _ => .std

/-- One step. -/
def Hooks.step (s : Hooks) : HookEv → Hooks
  | .take t => { hook := .std, kept := fun u => if u = t then s.hook else s.kept u }
  | .silence _ => { s with hook := .silent }
  | .restore t => { s with hook := s.kept t }

/-- The steps of one call. -/
def hookCall (t : Nat) : List HookEv := [.take t, .silence t, .restore t]

/-- Any number of steps. -/
def Hooks.run (s : Hooks) (evs : List HookEv) : Hooks := evs.foldl Hooks.step s

end NextPlaid.Gpu
