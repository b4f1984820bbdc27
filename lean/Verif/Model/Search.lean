import Verif.Model.Index
import Verif.Model.MaxSim

/-!
Model of /repo/next-plaid/src/search.rs and /repo/next-plaid/src/embeddings.rs.

Numerical parts are parameters (`Num`); the choices the standard library leaves open (order of hash
sets and heaps, ties in partial selection) are an `Oracle`.  rayon's `par_iter`/`par_chunks` preserve
order and are modelled sequentially.  The two zeros of `f32` are identified.
-/

namespace NextPlaid.Search
open NextPlaid NextPlaid.Index

variable {E : Env} {α : Type} [LinearOrder α]

/-! ### Comparisons -/

/-- `is_score_better`: /repo/next-plaid/src/search.rs:110-125 (same comparison as in maxsim.rs). -/
def better (a b : Score α) : Bool := MaxSim.isScoreBetter a b

/-- `max_score`: /repo/next-plaid/src/search.rs:127-133. -/
def maxScore (a b : Score α) : Score α := if better b a then b else a

/-- NaN: every non-finite tag other than 0, 1 (`-inf`) and 2 (`+inf`). -/
def isNaN : Score α → Bool
  | .fin _ => false
  | .nonfin t => decide (2 < t)

/-- IEEE `>`; false when an operand is NaN. -/
def floatGt : Score α → Score α → Bool
  | .fin a, .fin b => decide (b < a)
  | .fin _, .nonfin t => decide (t < 2)
  | .nonfin t, .fin _ => decide (t = 2)
  | .nonfin s, .nonfin t => decide (s = 2 ∧ t < 2)

/-- IEEE `>=`. -/
def floatGe (a b : Score α) : Bool :=
  floatGt a b || match a, b with
    | .fin a, .fin b => decide (a = b)
    | .nonfin s, .nonfin t => decide ((s = 2 ∧ t = 2) ∨ (s < 2 ∧ t < 2))
    | _, _ => false

/-- `f32::max`: a NaN operand is ignored. -/
def floatMax (a b : Score α) : Score α :=
  if isNaN a then b else if floatGt b a then b else a

/-! ### Parameters of the model -/

/-- `SearchParameters`: /repo/next-plaid/src/search.rs:28-48 (`batch_size` is not used by search). -/
structure Params (α : Type) where
  nFullScores : Nat
  topK : Nat
  nIvfProbe : Nat
  centroidBatchSize : Nat
  threshold : Option (Score α)

/-- The numerical parts: `dot` of a query token and a centroid, `f32` addition, decompression of the
tokens of a document (`codec.decompress`), and the exact score (`colbert_score`, lines 88-90). -/
structure Num (E : Env) (α : Type) where
  Q : Type
  V : Type
  dot : Q → E.Cent → Score α
  zero : Score α
  add : Score α → Score α → Score α
  decode : List E.Cent → E.Quant → List (Nat × E.Pk) → Res (List V)
  exact : List Q → List V → Score α

/-- A scored centroid. -/
abbrev Entry (α : Type) := Nat × Score α

/-- Choices left open by the standard library: `select_nth_unstable_by(k, descending)`, the iteration
order of `HashSet<usize>`, and the iteration order of a `BinaryHeap`. -/
structure Oracle (α : Type) where
  selectNth : Nat → List (Entry α) → List (Entry α)
  setOrder : List Nat → List Nat
  heapOrder : List (Entry α) → List (Entry α)

/-- What the standard library documents about them. -/
structure Oracle.Lawful (o : Oracle α) : Prop where
  selectNth_perm : ∀ k l, (o.selectNth k l).Perm l
  /-- The element at position `k` is where a full sort would put it: nothing before it is worse,
  nothing after it is better. -/
  selectNth_pivot : ∀ k l (_ : k < l.length), ∃ p, (o.selectNth k l)[k]? = some p ∧
    (∀ (i : Nat) e, i < k → (o.selectNth k l)[i]? = some e → better p.2 e.2 = false) ∧
    (∀ (i : Nat) e, k < i → (o.selectNth k l)[i]? = some e → better e.2 p.2 = false)
  setOrder_perm : ∀ l, (o.setOrder l).Perm l
  heapOrder_perm : ∀ l, (o.heapOrder l).Perm l

/-! ### Small helpers -/

/-- Insertion into a set kept as a list without repetitions. -/
def setInsert (s : List Nat) (c : Nat) : List Nat := if c ∈ s then s else s ++ [c]

/-- `sort_by(cmp_score_descending)`: a stable sort.  The result of a stable sort by a total preorder
is unique, so the algorithm does not matter. -/
def insertDesc (a : Int × Score α) : List (Int × Score α) → List (Int × Score α)
  | [] => [a]
  | b :: l => if better b.2 a.2 then b :: insertDesc a l else a :: b :: l

def sortDesc : List (Int × Score α) → List (Int × Score α)
  | [] => []
  | a :: l => insertDesc a (sortDesc l)

/-- The codes of one document: `index.doc_offsets[doc_id as usize]`, `.. + 1`, then a slice of the
codes; all three panic out of bounds.  A negative id becomes a huge `usize`. -/
def docCodes (x : Loaded E) (id : Int) : Res (List Nat) :=
  if id < 0 then .error .panic
  else do
    let s ← idx x.docOffsets id.toNat
    let e ← idx x.docOffsets (id.toNat + 1)
    slice x.codes s e

/-! ### Probing -/

/-- Rows of the query-centroid score matrix: `query.dot(&centroids.t())`, line 347. -/
def scoreRows (N : Num E α) (cents : List E.Cent) (query : List N.Q) : List (List (Score α)) :=
  query.map fun q => cents.map (N.dot q)

/-- The codes seen in the subset documents, lines 352-367. -/
def eligibleCentroids (x : Loaded E) (subset : List Int) : Res (List Nat) :=
  subset.foldlM (fun acc id =>
    if 0 ≤ id ∧ id < (x.docLengths.length : Int) then do
      let cs ← docCodes x id
      .ok (cs.foldl setInsert acc)
    else .ok acc) []

/-- Effective probe count, lines 373-386 (`u64` overflow not modelled). -/
def effectiveProbe (x : Loaded E) (nProbe : Nat) (subset : Option (List Int))
    (eligible : Option (List Nat)) : Nat :=
  match eligible, subset with
  | some el, some sub =>
    if el ≠ [] then
      let scaled := if 0 < sub.length then nProbe * x.docLengths.length / sub.length else nProbe
      min (max scaled nProbe) el.length
    else nProbe
  | _, _ => nProbe

/-- Partial selection and truncation, lines 402-413.  `n_probe - 1` with a zero probe count is a panic
(underflow, or an out-of-range selection index). -/
def takeBest (o : Oracle α) (n : Nat) (scored : List (Entry α)) : Res (List Nat) :=
  if n < scored.length then
    if n = 0 then .error .panic else .ok (((o.selectNth (n - 1) scored).take n).map (·.1))
  else .ok ((scored.take n).map (·.1))

/-- The best centroids of one query token, lines 389-414. -/
def probeToken (o : Oracle α) (row : List (Score α)) (pool : List Nat) (nProbe : Nat) : Res (List Nat) := do
  let scored ← pool.mapM fun c => do
    let s ← idx row c
    .ok ((c, s) : Entry α)
  takeBest o (min nProbe scored.length) scored

/-- `max_by(cmp_score_ascending)` over the query tokens, lines 425-429. -/
def columnMax (rows : List (List (Score α))) (c : Nat) : Res (Score α) := do
  let col ← rows.mapM fun row => idx row c
  .ok ((maxBy Score.cmpForMax col).getD MaxSim.negInf)

/-- The threshold filter of the standard path, lines 423-432. -/
def thresholdFilter (rows : List (List (Score α))) (thr : Option (Score α)) (sel : List Nat) :
    Res (List Nat) :=
  match thr with
  | none => .ok sel
  | some t => do
    let kept ← sel.mapM fun c => do
      let m ← columnMax rows c
      .ok (if floatGe m t then [c] else [])
    .ok kept.flatten

/-- The centroids a token chooses from, lines 392-400. -/
def poolOf (o : Oracle α) (numCentroids : Nat) : Option (List Nat) → List Nat
  | some el => o.setOrder el
  | none => List.range numCentroids

/-- Cells to probe on the standard path, lines 388-430. -/
def probeStandard (o : Oracle α) (rows : List (List (Score α))) (numCentroids : Nat)
    (eligible : Option (List Nat)) (nProbe : Nat) (thr : Option (Score α)) : Res (List Nat) := do
  let per ← rows.mapM fun row => probeToken o row (poolOf o numCentroids eligible) nProbe
  let sel := per.flatten.foldl setInsert []
  let kept ← thresholdFilter rows thr sel
  .ok (o.setOrder kept)

/-- `BinaryHeap<(Reverse<OrdF32>, usize)>`: the top is the worst score, among equals the largest
index. -/
def worseEntry (a b : Entry α) : Entry α :=
  match Score.cmpForMax a.2 b.2 with
  | .lt => a
  | .gt => b
  | .eq => if a.1 < b.1 then b else a

def peekWorst : List (Entry α) → Option (Entry α)
  | [] => none
  | a :: l => some (l.foldl worseEntry a)

/-- Offering one entry to a bounded heap, lines 179-197 and 218-227; the flag tells whether it was
pushed. -/
def heapOffer (n : Nat) (heap : List (Entry α)) (e : Entry α) : List (Entry α) × Bool :=
  if heap.length < n then (e :: heap, true)
  else
    match peekWorst heap with
    | some w => if better e.2 w.2 then (e :: heap.erase w, true) else (heap, false)
    | none => (heap, false)

/-- `max_scores.entry(c).and_modify(f).or_insert(s)` on an association list. -/
def scoreUpsert (f : Score α → Score α → Score α) (m : List (Entry α)) (c : Nat) (s : Score α) :
    List (Entry α) :=
  match m with
  | [] => [(c, s)]
  | (c', s') :: rest => if c' = c then (c', f s' s) :: rest else (c', s') :: scoreUpsert f rest c s

/-- One query token within one slice of centroids, lines 175-200. -/
def probeSlice (n start : Nat) (scores : List (Score α)) (ms : List (Entry α)) :
    List (Entry α) × List (Entry α) :=
  (scores.zipIdx.map fun p => ((start + p.2, p.1) : Entry α)).foldl
    (fun (st : List (Entry α) × List (Entry α)) e =>
      let r := heapOffer n st.1 e
      (r.1, if r.2 then scoreUpsert maxScore st.2 e.1 e.2 else st.2)) ([], ms)

/-- All query tokens within one slice, lines 157-205: the local heaps, and the map of best scores
shared by the tokens of the slice. -/
def probeBatch (n start : Nat) : (rows : List (List (Score α))) → (ms : List (Entry α)) →
    List (List (Entry α)) × List (Entry α)
  | [], ms => ([], ms)
  | row :: rows, ms =>
    let r := probeSlice n start row ms
    let rest := probeBatch n start rows r.2
    (r.1 :: rest.1, rest.2)

/-- Merging the local heaps of one token, lines 215-229. -/
def mergeHeap (o : Oracle α) (n : Nat) (final loc : List (Entry α)) : List (Entry α) :=
  (o.heapOrder loc).foldl (fun h e => (heapOffer n h e).1) final

/-- Merging all slices, lines 207-237. -/
def mergeBatches (o : Oracle α) (n : Nat) (numTokens : Nat)
    (locals : List (List (List (Entry α)) × List (Entry α))) : List (List (Entry α)) × List (Entry α) :=
  locals.foldl (fun st l =>
    (List.zipWith (mergeHeap o n) st.1 l.1, l.2.foldl (fun m e => scoreUpsert floatMax m e.1 e.2) st.2))
    (List.replicate numTokens [], [])

/-- `ivf_probe_batched`: /repo/next-plaid/src/search.rs:140-254.  A zero slice size panics in
`step_by`; callers exclude it. -/
def probeBatched (o : Oracle α) (N : Num E α) (cents : List E.Cent) (query : List N.Q) (n batch : Nat)
    (thr : Option (Score α)) : Res (List Nat) :=
  if batch = 0 then .error .panic
  else
    let locals := (List.range (numChunksFor cents.length batch)).map fun i =>
      probeBatch n (i * batch) (scoreRows N (chunkSlice cents batch i) query) []
    let merged := mergeBatches o n query.length locals
    let sel := ((merged.1.map o.heapOrder).flatten.map (·.1)).foldl setInsert []
    let kept := match thr with
      | none => sel
      | some t => sel.filter fun c =>
        floatGe (((merged.2.find? fun e => decide (e.1 = c)).map (·.2)).getD MaxSim.negInf) t
    .ok (o.setOrder kept)

/-! ### Approximate scores -/

/-- Inner loops of the approximate score: maximum by IEEE `>` from `-inf`, added when above `-inf`;
lines 282-300 and 308-321. -/
def approxAdd (N : Num E α) (total : Score α) (sims : List (Score α)) : Score α :=
  let m := sims.foldl (fun m s => if floatGt s m then s else m) MaxSim.negInf
  if floatGt m MaxSim.negInf then N.add total m else total

/-- `approximate_score_mmap`: /repo/next-plaid/src/search.rs:305-324. -/
def approxDense (N : Num E α) (rows : List (List (Score α))) (codes : List Nat) : Res (Score α) :=
  rows.foldlM (fun total row => do
    let sims ← codes.mapM fun c => idx row c
    .ok (approxAdd N total sims)) N.zero

/-- `build_sparse_centroid_scores`: /repo/next-plaid/src/search.rs:259-272; `centroids.row(c)` panics
out of range. -/
def buildSparse (N : Num E α) (cents : List E.Cent) (query : List N.Q) (ids : List Nat) :
    Res (List (Nat × List (Score α))) :=
  ids.mapM fun c => do
    let cent ← idx cents c
    .ok (c, query.map fun q => N.dot q cent)

/-- The score of centroid `c` for query token `q` in the sparse table; unknown centroids are skipped. -/
def sparseSim (sparse : List (Nat × List (Score α))) (q c : Nat) : Res (List (Score α)) :=
  match sparse.find? (fun e => decide (e.1 = c)) with
  | some e => do
    let s ← idx e.2 q
    .ok [s]
  | none => .ok []

/-- `approximate_score_sparse`: /repo/next-plaid/src/search.rs:275-302. -/
def approxSparse (N : Num E α) (sparse : List (Nat × List (Score α))) (codes : List Nat)
    (numTokens : Nat) : Res (Score α) :=
  (List.range numTokens).foldlM (fun total q => do
    let sims ← codes.mapM (sparseSim sparse q)
    .ok (approxAdd N total sims.flatten)) N.zero

/-! ### The search itself -/

/-- `QueryResult`: /repo/next-plaid/src/search.rs:73-80. -/
structure Result (α : Type) where
  queryId : Nat
  passageIds : List Int
  scores : List (Score α)

/-- Candidates, then the subset filter: lines 438-446 and 541-548. -/
def gather (x : Loaded E) (cells : List Nat) (subset : Option (List Int)) : Res (List Int) := do
  let cands ← x.candidates cells
  .ok (match subset with
    | some sub => cands.filter fun c => decide (c ∈ sub)
    | none => cands)

/-- `get_document_embeddings(doc_id as usize).ok()?` and the exact score, lines 493-497: an `Err` drops
the document, a panic propagates. -/
def exactOne (N : Num E α) (x : Loaded E) (query : List N.Q) (id : Int) : Res (List (Int × Score α)) :=
  if id < 0 then .ok []
  else
    match (do let toks ← x.docTokens id.toNat; N.decode x.centroids x.quant toks) with
    | .ok v => .ok [(id, N.exact query v)]
    | .error .err => .ok []
    | .error .panic => .error .panic

/-- `par_chunks(128).flat_map(..)`, lines 488-501; the chunk size is `DECOMPRESS_CHUNK_SIZE`, line 24. -/
def exactScores (N : Num E α) (x : Loaded E) (query : List N.Q) (ids : List Int) :
    Res (List (Int × Score α)) := do
  let parts ← (List.range (numChunksFor ids.length 128)).mapM fun i => do
    let ps ← (chunkSlice ids 128 i).mapM (exactOne N x query)
    .ok ps.flatten
  .ok parts.flatten

/-- The empty result, lines 449-453. -/
def emptyResult : Result α := ⟨0, [], []⟩

/-- From scored candidates to the answer: lines 469-516 and 596-640. -/
def rank (N : Num E α) (x : Loaded E) (query : List N.Q) (p : Params α)
    (approx : List (Int × Score α)) : Res (Result α) := do
  let top := ((sortDesc approx).take p.nFullScores).map (·.1)
  let toDecompress := top.take (max (p.nFullScores / 4) p.topK)
  if toDecompress = [] then .ok emptyResult
  else do
    let scored ← exactScores N x query toDecompress
    let sorted := sortDesc scored
    let count := min p.topK sorted.length
    .ok ⟨0, (sorted.take count).map (·.1), (sorted.take count).map (·.2)⟩

/-- The optional pre-computation of eligible centroids, line 352. -/
def eligibleOf (x : Loaded E) : Option (List Int) → Res (Option (List Nat))
  | some sub => do
    let el ← eligibleCentroids x sub
    .ok (some el)
  | none => .ok none

/-- Approximate scores of the candidates on the standard path, lines 456-466. -/
def approxStandard (N : Num E α) (x : Loaded E) (query : List N.Q) (cands : List Int) :
    Res (List (Int × Score α)) :=
  cands.mapM fun id => do
    let codes ← docCodes x id
    let s ← approxDense N (scoreRows N x.centroids query) codes
    .ok (id, s)

/-- Approximate scores on the batched path, lines 558-594. -/
def approxBatched (N : Num E α) (x : Loaded E) (query : List N.Q) (cands : List Int) :
    Res (List (Int × Score α)) := do
  let codes ← cands.mapM (docCodes x)
  let sparse ← buildSparse N x.centroids query (codes.flatten.foldl setInsert [])
  cands.mapM fun id => do
    let codes ← docCodes x id
    let s ← approxSparse N sparse codes query.length
    .ok (id, s)

/-- The standard path: /repo/next-plaid/src/search.rs:346-516. -/
def searchStandard (o : Oracle α) (N : Num E α) (x : Loaded E) (query : List N.Q) (p : Params α)
    (subset : Option (List Int)) : Res (Result α) := do
  let rows := scoreRows N x.centroids query
  let eligible ← eligibleOf x subset
  let nProbe := effectiveProbe x p.nIvfProbe subset eligible
  let cells ← probeStandard o rows x.centroids.length eligible nProbe p.threshold
  let cands ← gather x cells subset
  if cands = [] then .ok emptyResult
  else do
    let approx ← approxStandard N x query cands
    rank N x query p approx

/-- The batched path: `search_one_mmap_batched`, /repo/next-plaid/src/search.rs:521-640. -/
def searchBatched (o : Oracle α) (N : Num E α) (x : Loaded E) (query : List N.Q) (p : Params α)
    (subset : Option (List Int)) : Res (Result α) := do
  let cells ← probeBatched o N x.centroids query p.nIvfProbe p.centroidBatchSize p.threshold
  let cands ← gather x cells subset
  if cands = [] then .ok emptyResult
  else do
    let approx ← approxBatched N x query cands
    rank N x query p approx

/-- `search_one_mmap`: /repo/next-plaid/src/search.rs:327-516. -/
def searchOne (o : Oracle α) (N : Num E α) (x : Loaded E) (query : List N.Q) (p : Params α)
    (subset : Option (List Int)) : Res (Result α) :=
  if 0 < p.centroidBatchSize ∧ p.centroidBatchSize < x.centroids.length then
    searchBatched o N x query p subset
  else searchStandard o N x query p subset

/-- `search_many_mmap`: /repo/next-plaid/src/search.rs:643-675.  `os i` are the choices made while
answering query `i`. -/
def searchMany (os : Nat → Oracle α) (N : Num E α) (x : Loaded E) (queries : List (List N.Q))
    (p : Params α) (parallel : Bool) (subset : Option (List Int)) : Res (List (Result α)) :=
  if parallel then
    queries.zipIdx.mapM fun qi =>
      match searchOne (os qi.2) N x qi.1 p subset with
      | .ok r => .ok { r with queryId := qi.2 }
      | .error .err => .ok ⟨qi.2, [], []⟩
      | .error .panic => .error .panic
  else
    queries.zipIdx.mapM fun qi => do
      let r ← searchOne (os qi.2) N x qi.1 p subset
      .ok { r with queryId := qi.2 }

/-! ### Reconstruction -/

/-- `reconstruct_embeddings`: /repo/next-plaid/src/embeddings.rs:56-102. -/
def reconstruct (N : Num E α) (x : Loaded E) (ids : List Int) : Res (List (List N.V)) :=
  if ids.any fun id => decide (id < 0 ∨ (x.numDocuments : Int) ≤ id) then .error .err
  else ids.mapM fun id => do
    let s ← idx x.docOffsets id.toNat
    let e ← idx x.docOffsets (id.toNat + 1)
    if e - s = 0 then .ok []
    else do
      let codes ← slice x.codes s e
      let res ← slice x.residuals s e
      N.decode x.centroids x.quant (codes.zip res)

/-- `reconstruct_single`: /repo/next-plaid/src/embeddings.rs:116-119. -/
def reconstructSingle (N : Num E α) (x : Loaded E) (id : Int) : Res (List N.V) := do
  let r ← reconstruct N x [id]
  idx r 0

/-- The codes of one document: the body of `get_document_codes`, /repo/next-plaid/src/index.rs:1186-1193. -/
def codesOf (x : Loaded E) (i : Nat) : Res (List Nat) :=
  if x.docLengths.length ≤ i then .ok []
  else do
    let s ← idx x.docOffsets i
    let e ← idx x.docOffsets (i + 1)
    slice x.codes s e

/-- The packed residuals of one document: /repo/next-plaid/src/index.rs:1221-1238. -/
def residualsOf (x : Loaded E) (i : Nat) : Res (List E.Pk) :=
  if x.docLengths.length ≤ i then .ok []
  else do
    let s ← idx x.docOffsets i
    let e ← idx x.docOffsets (i + 1)
    slice x.residuals s e

/-- The length of one document: /repo/next-plaid/src/index.rs:1202-1208. -/
def lengthOf (x : Loaded E) (i : Nat) : Res Nat :=
  if x.docLengths.length ≤ i then .ok 0
  else do
    let s ← idx x.docOffsets i
    let e ← idx x.docOffsets (i + 1)
    .ok (e - s)

/-- `get_document_codes`: /repo/next-plaid/src/index.rs:1182-1194. -/
def documentCodes (x : Loaded E) (ids : List Nat) : Res (List (List Nat)) := ids.mapM (codesOf x)

/-- `decompress_documents`: /repo/next-plaid/src/index.rs:1197-1243. -/
def decompressDocuments (N : Num E α) (x : Loaded E) (ids : List Nat) : Res (List N.V × List Nat) := do
  let lengths ← ids.mapM (lengthOf x)
  if lengths.sum = 0 then .ok ([], lengths)
  else do
    let codes ← ids.mapM (codesOf x)
    let residuals ← ids.mapM (residualsOf x)
    let v ← N.decode x.centroids x.quant (codes.flatten.zip residuals.flatten)
    .ok (v, lengths)

end NextPlaid.Search
