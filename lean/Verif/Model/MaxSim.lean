import Verif.Model.Codec

/-!
Model of /repo/next-plaid/src/maxsim.rs.  Similarities are `Score` values; the dot product is a
parameter, so the GEMM and the row-by-row computation of it are identified.
-/

namespace NextPlaid.MaxSim
open NextPlaid

variable {α : Type} [LinearOrder α]

/-- `f32::NEG_INFINITY`, a non-finite score. -/
def negInf : Score α := .nonfin 0

/-- `is_score_better`: /repo/next-plaid/src/maxsim.rs:33-35. -/
def isScoreBetter (candidate current : Score α) : Bool :=
  match Score.cmpForMax candidate current with
  | .gt => true
  | _ => false

/-- `scalar_max`: /repo/next-plaid/src/maxsim.rs:57-63. -/
def scalarMax (slice : List (Score α)) : Score α :=
  match maxBy Score.cmpForMax slice with
  | some m => m
  | none => negInf

/-- `scalar_argmax`: /repo/next-plaid/src/maxsim.rs:68-75. Same fold as in the codec. -/
def scalarArgmax (slice : List (Score α)) : Nat := Codec.argmaxRow slice

/-- One lane of `_mm256_max_ps` / `vmaxq_f32`. On finite operands this is the larger one, and a
finite operand beats the initial `-inf`. Lanes holding NaN are not modelled faithfully: the code
discards the vector result whenever the slice has a non-finite element (lines 143-145, 207-209). -/
def laneMax (a b : Score α) : Score α :=
  match Score.cmpForMax a b with
  | .gt => a
  | _ => b

/-- A vector register is the list of its lanes. -/
def vmax (a b : List (Score α)) : List (Score α) := List.zipWith laneMax a b

/-- Unaligned vector load of `w` lanes at position `i`. -/
def load (w i : Nat) (slice : List (Score α)) : List (Score α) := (slice.drop i).take w

/-- The loop over `4*w` elements: /repo/next-plaid/src/maxsim.rs:96-110 (w = 8) and 169-181 (w = 4).
State: the four registers and `i`. -/
def loop4 (w : Nat) (slice : List (Score α)) : (fuel : Nat) →
    (v0 v1 v2 v3 : List (Score α)) → (i : Nat) →
    List (Score α) × List (Score α) × List (Score α) × List (Score α) × Nat
  | 0, v0, v1, v2, v3, i => (v0, v1, v2, v3, i)
  | fuel + 1, v0, v1, v2, v3, i =>
    if i + 4 * w ≤ slice.length then
      loop4 w slice fuel
        (vmax v0 (load w i slice)) (vmax v1 (load w (i + w) slice))
        (vmax v2 (load w (i + 2 * w) slice)) (vmax v3 (load w (i + 3 * w) slice)) (i + 4 * w)
    else (v0, v1, v2, v3, i)

/-- The loop over the remaining groups of `w`: /repo/next-plaid/src/maxsim.rs:113-117, 184-188. -/
def loop1 (w : Nat) (slice : List (Score α)) : (fuel : Nat) → (v0 : List (Score α)) → (i : Nat) →
    List (Score α) × Nat
  | 0, v0, i => (v0, i)
  | fuel + 1, v0, i =>
    if i + w ≤ slice.length then loop1 w slice fuel (vmax v0 (load w i slice)) (i + w)
    else (v0, i)

/-- Horizontal maximum of a 4-lane register: lane `i` with lane `i+2`, then lane 0 with lane 1.
/repo/next-plaid/src/maxsim.rs:129-134 (shuffles 0b01001110 and 0b00000001) and 196-198. -/
def hmax4 (v : List (Score α)) : Score α :=
  let pair := vmax v (v.drop 2 ++ v.take 2)
  match vmax pair (pair.drop 1 ++ pair.take 1) with
  | x :: _ => x
  | [] => negInf

/-- Horizontal maximum of an 8-lane register: high half with low half, then `hmax4`.
/repo/next-plaid/src/maxsim.rs:125-134. -/
def hmax8 (v : List (Score α)) : Score α := hmax4 (vmax (v.drop 4) (v.take 4))

/-- The vector part, the tail loop and the non-finite fallback of `simd_max`:
/repo/next-plaid/src/maxsim.rs:86-148 (`w = 8`, `hmax8`) and 159-212 (`w = 4`, `hmax4`). -/
def simdMaxWith (w : Nat) (hmax : List (Score α) → Score α) (slice : List (Score α)) : Score α :=
  let init := List.replicate w (negInf : Score α)
  let (v0, v1, v2, v3, i) := loop4 w slice slice.length init init init init 0
  let (v0, i) := loop1 w slice slice.length v0 i
  let v0 := vmax v0 v1
  let v2 := vmax v2 v3
  let v0 := vmax v0 v2
  let result := (slice.drop i).foldl (fun r x => if isScoreBetter x r then x else r) (hmax v0)
  if !result.isFinite || slice.any (fun x => !x.isFinite) then scalarMax slice else result

/-- The instruction sets the build can target. -/
inductive Arch where
  | avx2
  | x86NoAvx2
  | neon
  | other
deriving DecidableEq, Repr

/-- `simd_max`: /repo/next-plaid/src/maxsim.rs:81-149 (x86_64), 154-213 (aarch64), 218-220 (other). -/
def simdMax (arch : Arch) (slice : List (Score α)) : Score α :=
  match arch with
  | .avx2 => if slice.length < 8 then scalarMax slice else simdMaxWith 8 hmax8 slice
  | .x86NoAvx2 => scalarMax slice
  | .neon => if slice.length < 4 then scalarMax slice else simdMaxWith 4 hmax4 slice
  | .other => scalarMax slice

/-- Floating-point `==` on scores: NaN (tag > 2) differs from everything, infinities equal themselves.
The tags 0, 1, 2 are -inf, -inf, +inf; any other tag is a NaN. -/
def floatEq : Score α → Score α → Bool
  | .fin a, .fin b => decide (a = b)
  | .nonfin s, .nonfin t => decide (s ≤ 2 ∧ s = t)
  | _, _ => false

/-- `simd_argmax`: /repo/next-plaid/src/maxsim.rs:225-246. -/
def simdArgmax (arch : Arch) (slice : List (Score α)) : Nat :=
  if slice = [] then 0
  else if slice.length < 8 ∨ arch = .x86NoAvx2 then scalarArgmax slice
  else
    let maxVal := simdMax arch slice
    match slice.findIdx? (fun x => floatEq x maxVal) with
    | some i => i
    | none => 0

/-- Per query token: add the maximum if it is finite.
/repo/next-plaid/src/maxsim.rs:288-290 and 309-311. -/
def addFinite [Add α] (total : α) (m : Score α) : α :=
  match m with
  | .fin a => total + a
  | .nonfin _ => total

/-- `maxsim_score_simple`: /repo/next-plaid/src/maxsim.rs:298-315. -/
def maxsimScoreSimple {ε : Type} [Add α] [Zero α] (sim : ε → ε → Score α) (query doc : List ε) : α :=
  query.foldl (fun total q =>
    addFinite total
      (doc.foldl (fun m d => if isScoreBetter (sim q d) m then sim q d else m) negInf)) 0

/-- `maxsim_score`: /repo/next-plaid/src/maxsim.rs:270-294. -/
def maxsimScore {ε : Type} [Add α] [Zero α] (arch : Arch) (sim : ε → ε → Score α)
    (query doc : List ε) : α :=
  if query.length * doc.length < 256 then maxsimScoreSimple sim query doc
  else query.foldl (fun total q => addFinite total (simdMax arch (doc.map (sim q)))) 0

/-- The simple path of `assign_to_centroids`: /repo/next-plaid/src/maxsim.rs:345-356.
State: `(best_idx, best_score, idx)`. -/
def firstBest (row : List (Score α)) : Nat :=
  (row.foldl (fun (st : Nat × Score α × Nat) score =>
    let (bestIdx, bestScore, i) := st
    if isScoreBetter score bestScore then (i, score, i + 1) else (bestIdx, bestScore, i + 1))
    (0, negInf, 0)).1

/-- `assign_to_centroids`: /repo/next-plaid/src/maxsim.rs:330-385. -/
def assignToCentroids {ε : Type} (arch : Arch) (score : ε → ε → Score α)
    (embeddings centroids : List ε) : List Nat :=
  let n := embeddings.length
  let k := centroids.length
  if n = 0 ∨ k = 0 then List.replicate n 0
  else if n * k < 1024 then embeddings.map fun e => firstBest (centroids.map (score e))
  else
    let batchSize := min (max 1 (min 4096 (2 * 1024 * 1024 * 1024 / (k * 4)))) n
    ((Codec.batchRanges n batchSize n 0).map fun (s, e) =>
      ((embeddings.drop s).take (e - s)).map fun emb =>
        simdArgmax arch (centroids.map (score emb))).flatten

end NextPlaid.MaxSim
